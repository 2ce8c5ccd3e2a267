import Verif.Lemmas.Legendre
import Verif.Props.Action

/-! Property C98: Hamilton's equations, and the conservation of the momentum of a joint whose position does not matter. -/

namespace RBDyn
open scoped Mat3 Topology

/-- `p` are the generalized momenta of the state: the product of the matrix of `computeH` and the joint velocities. -/
def Momenta (mb : MultiBody ℝ) (m : MBC ℝ) (p : Nat → Nat → ℝ) : Prop :=
  ∃ fd fd₁ : FD ℝ, fd.Fits mb ∧ fd.computeH mb m = .ok fd₁ ∧
    ∀ i a, i < mb.bodies.length → a < mb.dofAt i → p i a = fd₁.H.mulVecAt m.alpha.flatten (mb.dofPosAt i + a)

variable {mb : MultiBody ℝ} {solve : DMat ℝ → List ℝ → List ℝ} {γ : Vec3 ℝ} {mbc : ℝ → MBC ℝ}

theorem Momenta.eq (M : Machine mb solve) {m : MBC ℝ} (sz : m.Sized mb) (hv : m.PosReady mb) {p : Nat → Nat → ℝ} (h : Momenta mb m p) (y : mb.Ix) :
    p y.1 y.2 = (mb.massMat m.q).mulVec (mb.flat m.alpha) y := by
  obtain ⟨fd, fd₁, hf, e, hp⟩ := h
  obtain ⟨d', e1, h1, -⟩ := computeH_eq M.wf M.rigid (M.valid (M.sizedQ.1 sz.q)) hv hf
  rw [e] at e1
  cases e1
  rw [hp y.1 y.2 y.1.2 y.2.2, h1.mulVecAt M.wf sz.alpha y.1.2 y.2.2, MultiBody.dofSum_ix]
  rfl

theorem genMom_eq (wf : mb.WF) (q α : List (List ℝ)) (y : mb.Ix) : mb.genMom q α y.1 y.2 = (mb.massMat q).mulVec (mb.flat α) y := by
  have e : (mb.massMat q).mulVec (mb.flat α) y = mb.dofSum fun j b => mb.massAt q y.1 y.2 j b * entry α j b := by
    rw [MultiBody.dofSum_ix]; rfl
  rw [e]
  unfold MultiBody.genMom MultiBody.massAt MultiBody.nrBodies
  have e' : ∀ k, (mb.colAt q k y.1 y.2).dot ((mb.inertiaAt k).mulMotion (mb.velAt q α k)) =
      mb.dofSum fun j b => (mb.colAt q k y.1 y.2).dot ((mb.inertiaAt k).mulMotion (mb.colAt q k j b)) * entry α j b := by
    intro k
    rw [wf.velAt_eq]
    unfold MultiBody.dofSum
    rw [RBInertia.mulMotion_sum, MotionVec.dot_sum]
    refine Finset.sum_congr rfl fun j _ => ?_
    rw [RBInertia.mulMotion_sum, MotionVec.dot_sum]
    refine Finset.sum_congr rfl fun b _ => ?_
    rw [RBInertia.mulMotion_smul, MotionVec.dot_smul, mul_comm]
  rw [Finset.sum_congr rfl fun k _ => e' k]
  simp only [MultiBody.dofSum_ix, Finset.sum_mul]
  exact Finset.sum_comm

/-- The derivatives of kinetic minus potential energy by the velocities are the momenta. -/
theorem lagr_velocity (M : Machine mb solve) (q v : mb.Ix → ℝ) (y : mb.Ix) :
    fderiv ℝ (lagr mb γ) (q, v) (0, Pi.single y 1) = (mb.massMat (mb.unflat q)).mulVec v y := by
  have e1 : HasDerivAt (fun x : ℝ => (q, v + x • (Pi.single y 1 : mb.Ix → ℝ))) (0, Pi.single y 1) 0 := by
    refine (hasDerivAt_const _ _).prodMk ?_
    simpa using ((hasDerivAt_id (0 : ℝ)).smul_const (Pi.single y 1 : mb.Ix → ℝ)).const_add v
  have e2 := ((lagr_diff M (γ := γ)).differentiable one_ne_zero (q, v + (0 : ℝ) • (Pi.single y 1 : mb.Ix → ℝ))).hasFDerivAt.comp_hasDerivAt (0 : ℝ) e1
  rw [zero_smul, add_zero] at e2
  have hv := mb.unflat_sized M.wf v
  have e3 := (M.wf.kinE_bump hv y.1.2 y.2.2 (mb.unflat q)).sub_const (mb.potE γ (mb.unflat q))
  rw [genMom_eq M.wf, MultiBody.flat_unflat] at e3
  refine e2.unique (e3.congr_of_eventuallyEq (.of_forall fun x => ?_))
  unfold lagr
  simp only [Function.comp, bump_unflat M hv, MultiBody.flat_unflat]

/-- The velocities that belong to positions and momenta. -/
noncomputable def velOf (mb : MultiBody ℝ) (w : (mb.Ix → ℝ) × (mb.Ix → ℝ)) : mb.Ix → ℝ :=
  (mb.massMat (mb.unflat w.1))⁻¹.mulVec w.2

theorem velOf_diff (M : Machine mb solve) : ContDiff ℝ 1 (velOf mb) := by
  have hq : DiffDof mb fun w : (mb.Ix → ℝ) × (mb.Ix → ℝ) => mb.unflat w.1 := .unflat M.wf contDiff_fst
  refine contDiff_pi.2 fun x => ?_
  simp only [velOf, Matrix.mulVec, dotProduct]
  refine ContDiff.sum fun y _ => ContDiff.mul ?_ ((contDiff_apply ℝ ℝ y).comp contDiff_snd)
  exact diff_inv (M := fun w : (mb.Ix → ℝ) × (mb.Ix → ℝ) => mb.massMat (mb.unflat w.1)) (fun a b => hq.massAt M.wf M.simple _ _ _ _)
    (fun w => massMat_regular M.wf M.rigid (M.valid (mb.unflat_sized M.wf _)) M.inertia M.subspace) x y

theorem massMat_velOf (M : Machine mb solve) (q p : mb.Ix → ℝ) : (mb.massMat (mb.unflat q)).mulVec (velOf mb (q, p)) = p := by
  have hu := massMat_regular M.wf M.rigid (M.valid (mb.unflat_sized M.wf q)) M.inertia M.subspace
  rw [velOf, Matrix.mulVec_mulVec, Matrix.mul_nonsing_inv _ hu, Matrix.one_mulVec]

theorem velOf_massMat (M : Machine mb solve) (q v : mb.Ix → ℝ) : velOf mb (q, (mb.massMat (mb.unflat q)).mulVec v) = v := by
  have hu := massMat_regular M.wf M.rigid (M.valid (mb.unflat_sized M.wf q)) M.inertia M.subspace
  rw [velOf, Matrix.mulVec_mulVec, Matrix.nonsing_inv_mul _ hu, Matrix.one_mulVec]

/-- C98, Hamilton's equations: the energy of the robot is a continuously differentiable function `E` of its positions and momenta. Its derivatives by the momenta
are the joint velocities. Forward dynamics computes the accelerations of a path from its torques at a time if and only if the momenta change then at the rate of
the torques minus the derivatives of `E` by the positions. -/
theorem C98_hamilton (M : Machine mb solve) (γ : Vec3 ℝ) : ∃ E : (mb.Ix → ℝ) × (mb.Ix → ℝ) → ℝ, ContDiff ℝ 1 E ∧
    (∀ (m : MBC ℝ) (p : Nat → Nat → ℝ), m.Sized mb → m.VelReady mb → m.gravity = γ → Momenta mb m p →
      (∀ T U, Energies mb m T U → E (fun y => entry m.q y.1 y.2, fun y => p y.1 y.2) = T m.q m.alpha + U m.q) ∧
      ∀ y : mb.Ix, fderiv ℝ E (fun y => entry m.q y.1 y.2, fun y => p y.1 y.2) (0, Pi.single y 1) = entry m.alpha y.1 y.2) ∧
    ∀ (mbc : ℝ → MBC ℝ) (p : ℝ → Nat → Nat → ℝ), Path mb γ mbc → (∀ t, Momenta mb (mbc t) (p t)) → ∀ t,
      (∃ fd fd' m, FD.Fits mb fd ∧ fd.forwardDynamics solve mb (mbc t) = .ok (fd', m) ∧ m.alphaD = (mbc t).alphaD) ↔
        ∀ y : mb.Ix, HasDerivAt (fun s => p s y.1 y.2)
          (entry (mbc t).jointTorque y.1 y.2 - fderiv ℝ E (fun y => entry (mbc t).q y.1 y.2, fun y => p t y.1 y.2) (Pi.single y 1, 0)) t := by
  have hL := lagr_diff M (γ := γ)
  have hA := velOf_diff M
  have hpart : ∀ q p u v, _ := fun q p u v => legendre_fderiv hL hA (q := q) (p := p) (fun y => by
    rw [lagr_velocity M, massMat_velOf M]) u v
  have hmom : ∀ {m : MBC ℝ} {p : Nat → Nat → ℝ}, m.Sized mb → m.PosReady mb → Momenta mb m p →
      (fun y : mb.Ix => p y.1 y.2) = (mb.massMat (mb.unflat (mb.flat m.q))).mulVec (mb.flat m.alpha) := fun {m p} sz hv h => by
    rw [MultiBody.unflat_flat M.wf (M.sizedQ.1 sz.q)]
    exact funext fun y => h.eq M sz hv y
  have hvel : ∀ {m : MBC ℝ} {p : Nat → Nat → ℝ}, m.Sized mb → m.PosReady mb → Momenta mb m p →
      velOf mb (mb.flat m.q, fun y => p y.1 y.2) = mb.flat m.alpha := fun {m p} sz hv h => by
    rw [hmom sz hv h, velOf_massMat M]
  refine ⟨_, legendre_diff hL hA, fun m p sz hv hg hp => ⟨fun T U hE => ?_, fun y => ?_⟩, fun mbc p h hp t => ?_⟩
  · show ∑ y : mb.Ix, p y.1 y.2 * velOf mb (mb.flat m.q, fun y => p y.1 y.2) y - lagr mb γ (mb.flat m.q, velOf mb (mb.flat m.q, fun y => p y.1 y.2)) = _
    rw [hvel sz hv.toPosReady hp]
    have e := energies_unique M sz hE (M.sizedQ.1 sz.q) sz.alpha
    have hk : ∑ y : mb.Ix, p y.1 y.2 * mb.flat m.alpha y = 2 * mb.kinE m.q m.alpha := by
      unfold MultiBody.kinE MultiBody.nrBodies
      rw [← M.wf.kinetic, MultiBody.dofSum_ix, ← mul_assoc]
      norm_num
      refine Finset.sum_congr rfl fun y _ => ?_
      rw [hp.eq M sz hv.toPosReady y, MultiBody.dofSum_ix, mul_comm]
      rfl
    unfold lagr
    rw [hk, MultiBody.unflat_flat M.wf (M.sizedQ.1 sz.q), MultiBody.unflat_flat M.wf sz.alpha, e.1, e.2, hg]
    ring
  · refine (hpart (mb.flat m.q) (fun y => p y.1 y.2) 0 (Pi.single y 1)).trans ?_
    rw [hvel sz hv.toPosReady hp, show ((0, 0) : (mb.Ix → ℝ) × (mb.Ix → ℝ)) = 0 from rfl, map_zero, sub_zero]
    rw [Finset.sum_eq_single y (fun z _ hz => by simp [hz]) (by simp)]
    simp [MultiBody.flat]
  · obtain ⟨P, P', h1, h2, h3⟩ := h.lagrange M
    have hP : ∀ s (y : mb.Ix), P s y = p s y.1 y.2 := fun s y => by
      rw [← h2, lagr_velocity M, ← hmom (h.sized s) (h.ready s).toPosReady (hp s)]
    have hd : ∀ y : mb.Ix, HasDerivAt (fun s => p s y.1 y.2) (P' t y) t := fun y => by
      simpa only [hP] using h1 y t
    have hq : ∀ y : mb.Ix, fderiv ℝ (fun w : (mb.Ix → ℝ) × (mb.Ix → ℝ) => ∑ y, w.2 y * velOf mb w y - lagr mb γ (w.1, velOf mb w))
        (fun y => entry (mbc t).q y.1 y.2, fun y => p t y.1 y.2) (Pi.single y 1, 0) = need mb (mbc t) y - P' t y := fun y => by
      refine (hpart (mb.flat (mbc t).q) (fun y => p t y.1 y.2) (Pi.single y 1) 0).trans ?_
      rw [hvel (h.sized t) (h.ready t).toPosReady (hp t), h3]
      simp
    simp only [hq]
    rw [h.dynamics_iff M t]
    constructor
    · intro e y
      refine (hd y).congr_deriv ?_
      rw [← e]
      simp [MultiBody.flat]
    · intro e
      funext y
      have := (hd y).unique (e y)
      unfold MultiBody.flat
      linarith

/-- C98: when neither energy depends on the position of a degree of freedom, and no torque acts there, its momentum is constant. -/
theorem C98_cyclic (M : Machine mb solve) (h : Path mb γ mbc)
    (hd : ∀ t, ∃ fd fd' m, FD.Fits mb fd ∧ fd.forwardDynamics solve mb (mbc t) = .ok (fd', m) ∧ m.alphaD = (mbc t).alphaD)
    {T : List (List ℝ) → List (List ℝ) → ℝ} {U : List (List ℝ) → ℝ} (hE : ∀ t, Energies mb (mbc t) T U) {p : ℝ → Nat → Nat → ℝ}
    (hp : ∀ t, Momenta mb (mbc t) (p t)) {i a : Nat} (hi : i < mb.bodies.length) (ha : a < mb.dofAt i)
    (hsame : ∀ t x, T (bump (mbc t).q i a x) (mbc t).alpha - U (bump (mbc t).q i a x) = T (mbc t).q (mbc t).alpha - U (mbc t).q)
    (hτ : ∀ t, entry (mbc t).jointTorque i a = 0) (t s : ℝ) : p t i a = p s i a := by
  obtain ⟨P, P', h1, h2, h3⟩ := h.lagrange M
  set y : mb.Ix := ⟨⟨i, hi⟩, ⟨a, ha⟩⟩ with hy
  have hP : ∀ s, P s y = p s i a := fun s => by
    rw [← h2, lagr_velocity M, MultiBody.unflat_flat M.wf (M.sizedQ.1 (h.sized s).q)]
    exact ((hp s).eq M (h.sized s) (h.ready s).toPosReady y).symm
  have hz : ∀ t, P' t y = 0 := fun t => by
    have e1 : HasDerivAt (fun x : ℝ => (mb.flat (mbc t).q + x • (Pi.single y 1 : mb.Ix → ℝ), mb.flat (mbc t).alpha)) (Pi.single y 1, 0) 0 := by
      refine HasDerivAt.prodMk ?_ (hasDerivAt_const _ _)
      simpa using ((hasDerivAt_id (0 : ℝ)).smul_const (Pi.single y 1 : mb.Ix → ℝ)).const_add (mb.flat (mbc t).q)
    have e2 := ((lagr_diff M (γ := γ)).differentiable one_ne_zero
      (mb.flat (mbc t).q + (0 : ℝ) • (Pi.single y 1 : mb.Ix → ℝ), mb.flat (mbc t).alpha)).hasFDerivAt.comp_hasDerivAt (0 : ℝ) e1
    rw [zero_smul, add_zero, h3] at e2
    have e3 := e2.unique ((hasDerivAt_const (0 : ℝ) (T (mbc t).q (mbc t).alpha - U (mbc t).q)).congr_of_eventuallyEq (.of_forall fun x => by
      rw [← hsame t x]
      have sq := (M.sizedQ.1 (h.sized t).q).bump i a x
      obtain ⟨eT, eU⟩ := energies_unique M (h.sized t) (hE t) sq (h.sized t).alpha
      rw [eT, eU, h.gravity t]
      have := bump_unflat M (M.sizedQ.1 (h.sized t).q) y x
      rw [show bump (mbc t).q i a x = bump (mbc t).q y.1 y.2 x from rfl, this]
      unfold lagr
      simp only [Function.comp, MultiBody.unflat_flat M.wf (h.sized t).alpha]))
    have e4 := congrFun ((h.dynamics_iff M t).1 (hd t)) y
    have e5 : mb.flat (mbc t).jointTorque y = 0 := hτ t
    linarith
  rw [← hP, ← hP]
  have hd0 : ∀ t, HasDerivAt (fun s => P s y) 0 t := fun t => by simpa only [hz] using h1 y t
  exact is_const_of_deriv_eq_zero (fun t => (hd0 t).differentiableAt) (fun t => (hd0 t).deriv) t s

/-- A slider with a pendulum in weightlessness: the momentum of the slider is constant, while its velocity need not be. All hypotheses of `C98_hamilton` and
`C98_cyclic` hold for it. -/
example : ∃ (mb : MultiBody ℝ) (solve : DMat ℝ → List ℝ → List ℝ) (mbc : ℝ → MBC ℝ) (p : ℝ → Nat → Nat → ℝ), mb.joints.map (·.type) = [.Prism, .Rev] ∧
    Machine mb solve ∧ Path mb 0 mbc ∧ (∀ t, Momenta mb (mbc t) (p t)) ∧ (mbc 0).alpha = [[1], [2]] ∧
    (∀ t, ∃ fd fd' m, FD.Fits mb fd ∧ fd.forwardDynamics solve mb (mbc t) = .ok (fd', m) ∧ m.alphaD = (mbc t).alphaD) ∧ ∀ t, p t 0 0 = p 0 0 0 := by
  obtain ⟨mb, solve, M, ht, hl, hdof, hsz⟩ := Sample.slider
  obtain ⟨c, e1, e2, h⟩ := C90_forever M (pdLaw_smooth M) calm_smooth (pdLaw_linear M (kp := fun _ _ => 0) (kd := fun _ _ => 0) (goal := [])) (calm_linear M)
    0 (hsz 0 0) (hsz 1 2) 0
  have P := h.path M (pdLaw_smooth M)
  have hE : ∀ t, Energies mb (c t) mb.kinE (mb.potE 0) := fun t => by
    have := energies M.wf M.rigid (P.sized t)
    rwa [P.gravity t] at this
  obtain ⟨fd, -, hfit⟩ := FD.mk'_fits M.wf (⟨⟨0, 0, fun _ _ => 0⟩, [], [], [], [], [], [], []⟩ : FD ℝ)
  choose fd₁ ef _ _ _ using fun t => computeH_eq M.wf M.rigid ((P.moves t).valid t) (P.ready t).toPosReady hfit
  have hp : ∀ t, Momenta mb (c t) fun i a => (fd₁ t).H.mulVecAt (c t).alpha.flatten (mb.dofPosAt i + a) := fun t =>
    ⟨fd, fd₁ t, hfit, ef t, fun _ _ _ _ => rfl⟩
  have hdyn := fun t => h.dynamics t trivial
  have ha : 0 < mb.dofAt 0 := by rw [hdof 0 two_pos]; exact one_pos
  refine ⟨mb, solve, c, _, ht, M, P, hp, e2, hdyn, fun t => C98_cyclic M P hdyn hE hp (i := 0) (a := 0) (by omega) ha (fun t x => ?_) (fun t => ?_) t 0⟩
  · have sq := M.sizedQ.1 (P.sized t).q
    have v0 := M.valid sq
    have v1 := M.valid (sq.bump 0 0 x)
    have hpts : mb.ptsAt (bump (c t).q 0 0 x) 1 = mb.ptsAt (c t).q 1 := by
      unfold MultiBody.ptsAt MultiBody.poseAt
      have : (bump (c t).q 0 0 x)[1]? = (c t).q[1]? := by
        unfold bump
        rw [List.getElem?_modify]
        simp
      rw [this]
    have hn : mb.par 0 = none := by
      cases e : mb.par 0 with
      | none => rfl
      | some k => exact absurd (M.wf.par_lt _ _ e) (by omega)
    have hv0 : mb.velAt (bump (c t).q 0 0 x) (c t).alpha 0 = mb.velAt (c t).q (c t).alpha 0 := by
      rw [M.wf.velAt_none M.rigid v1 _ (by omega) hn, M.wf.velAt_none M.rigid v0 _ (by omega) hn]
    have hv1 : mb.velAt (bump (c t).q 0 0 x) (c t).alpha 1 = mb.velAt (c t).q (c t).alpha 1 := by
      cases e : mb.par 1 with
      | none => rw [M.wf.velAt_none M.rigid v1 _ (by omega) e, M.wf.velAt_none M.rigid v0 _ (by omega) e]
      | some k =>
        obtain rfl : k = 0 := by have := M.wf.par_lt _ _ e; omega
        rw [M.wf.velAt_some M.rigid v1 _ (by omega) e, M.wf.velAt_some M.rigid v0 _ (by omega) e, hpts, hv0]
    unfold MultiBody.kinE MultiBody.potE MultiBody.nrBodies
    rw [hl]
    simp [Finset.sum_range_succ, hv0, hv1, Vec3.zero_dot]
  · rw [h.torque t trivial]
    unfold pdLaw
    rw [mb.entry_ofEntries _ (by omega) ha]
    ring

end RBDyn
