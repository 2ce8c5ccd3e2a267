import Verif.Lemmas.Action
import Verif.Props.Lagrange
import Verif.Props.Swing

/-! Property C97: Hamilton's principle. The motions that forward dynamics computes are those along which the integral of kinetic minus potential energy is stationary. -/

namespace RBDyn
open scoped Mat3 Topology
open MeasureTheory

/-- A smooth path of the state through time under the gravity `γ`, with any torques and accelerations that depend continuously on time, and with no external forces.
The accelerations need not be those of the torques. -/
structure Path (mb : MultiBody ℝ) (γ : Vec3 ℝ) (mbc : ℝ → MBC ℝ) : Prop where
  sized : ∀ t, (mbc t).Sized mb
  ready : ∀ t, (mbc t).VelReady mb
  moves : ∀ t, Trajectory mb (fun s => (mbc s).q) (mbc t).alpha t
  rate : ∀ t, HasDerivDof mb (fun s => (mbc s).alpha) (mbc t).alphaD t
  gravity : ∀ t, (mbc t).gravity = γ
  force : ∀ t, ∀ f ∈ (mbc t).force, f = 0
  acc : ∀ i a, Continuous fun t => entry (mbc t).alphaD i a
  torque : ∀ i a, Continuous fun t => entry (mbc t).jointTorque i a

/-- A variation of the path between the times `a` and `b`, with its derivative: a displacement of every degree of freedom that vanishes at both times. -/
structure Variation (a b : ℝ) (η η' : ℝ → Nat → Nat → ℝ) : Prop where
  rate : ∀ t i x, HasDerivAt (fun s => η s i x) (η' t i x) t
  smooth : ∀ i x, Continuous fun t => η' t i x
  start : ∀ i x, η a i x = 0
  stop : ∀ i x, η b i x = 0

/-- Per-joint vectors with `ε` times the displacement `w` added. -/
noncomputable def MultiBody.displaced (mb : MultiBody ℝ) (v : List (List ℝ)) (ε : ℝ) (w : Nat → Nat → ℝ) : List (List ℝ) :=
  mb.ofEntries fun i a => entry v i a + ε * w i a

/-- The integral of kinetic minus potential energy between the times `a` and `b` along the path displaced by `ε` times the variation. -/
noncomputable def action (mb : MultiBody ℝ) (T : List (List ℝ) → List (List ℝ) → ℝ) (U : List (List ℝ) → ℝ) (mbc : ℝ → MBC ℝ) (a b : ℝ)
    (η η' : ℝ → Nat → Nat → ℝ) (ε : ℝ) : ℝ :=
  ∫ t in a..b, (T (mb.displaced (mbc t).q ε (η t)) (mb.displaced (mbc t).alpha ε (η' t)) - U (mb.displaced (mbc t).q ε (η t)))

variable {mb : MultiBody ℝ} {solve : DMat ℝ → List ℝ → List ℝ} {γ : Vec3 ℝ} {mbc : ℝ → MBC ℝ} {a b : ℝ} {η η' : ℝ → Nat → Nat → ℝ}

/-! ### The energies as functions of numbers -/

noncomputable def lagr (mb : MultiBody ℝ) (γ : Vec3 ℝ) (w : (mb.Ix → ℝ) × (mb.Ix → ℝ)) : ℝ :=
  mb.kinE (mb.unflat w.1) (mb.unflat w.2) - mb.potE γ (mb.unflat w.1)

theorem lagr_diff (M : Machine mb solve) : ContDiff ℝ 1 (lagr mb γ) := by
  have hq : DiffDof mb fun w : (mb.Ix → ℝ) × (mb.Ix → ℝ) => mb.unflat w.1 := .unflat M.wf contDiff_fst
  have ha : DiffDof mb fun w : (mb.Ix → ℝ) × (mb.Ix → ℝ) => mb.unflat w.2 := .unflat M.wf contDiff_snd
  unfold lagr MultiBody.kinE MultiBody.potE
  refine ContDiff.sub (contDiff_const.mul (ContDiff.sum fun k _ => ?_)) (ContDiff.sum fun k _ => ?_)
  · exact (hq.velAt M.wf M.simple ha k).dot ((hq.velAt M.wf M.simple ha k).inertia _)
  · have h := hq.posAt M.wf M.simple k
    have h1 := h.r.dot (DiffVec.const γ)
    have h2 := (h.E.tr.mulVec (DiffVec.const (mb.inertiaAt k).h)).dot (DiffVec.const γ)
    have := h2.add (contDiff_const (c := (mb.inertiaAt k).m) |>.mul h1)
    refine (congrArg (ContDiff ℝ 1) (funext fun q => ?_)).mpr this
    unfold massPos
    simp only [Vec3.dot, Vec3.add_x, Vec3.add_y, Vec3.add_z, Vec3.smul_x, Vec3.smul_y, Vec3.smul_z]
    ring

theorem energies_unique (M : Machine mb solve) {c : MBC ℝ} {T : List (List ℝ) → List (List ℝ) → ℝ} {U : List (List ℝ) → ℝ} (sz : c.Sized mb)
    (h : Energies mb c T U) {q α : List (List ℝ)} (hq : SizedDof mb q) (hα : SizedDof mb α) : T q α = mb.kinE q α ∧ U q = mb.potE c.gravity q := by
  obtain ⟨m₁, m₂, e1, e2, e3, e4⟩ := h q α (M.valid hq) hα
  obtain ⟨n₁, n₂, f1, f2, f3, f4⟩ := energies M.wf M.rigid sz q α (M.valid hq) hα
  rw [e1] at f1
  cases f1
  rw [e2] at f2
  cases f2
  exact ⟨e3.trans f3.symm, e4.trans f4.symm⟩

theorem displaced_eq (M : Machine mb solve) (v : List (List ℝ)) (ε : ℝ) (w : Nat → Nat → ℝ) :
    mb.displaced v ε w = mb.unflat (mb.flat v + ε • fun y : mb.Ix => w y.1 y.2) :=
  SizedDof.ext_entry M.wf (mb.ofEntries_sized M.wf _) (mb.unflat_sized M.wf _) fun i a hi ha => by
    unfold MultiBody.displaced
    rw [mb.entry_ofEntries _ hi ha, MultiBody.entry_unflat _ hi ha]
    rfl

theorem bump_unflat (M : Machine mb solve) {v : List (List ℝ)} (hv : SizedDof mb v) (y : mb.Ix) (x : ℝ) :
    bump v y.1 y.2 x = mb.unflat (mb.flat v + x • (Pi.single y 1 : mb.Ix → ℝ)) :=
  SizedDof.ext_entry M.wf (hv.bump _ _ _) (mb.unflat_sized M.wf _) fun i a hi ha => by
    rw [entry_bump (hv.entry_lt M.wf y.1.2 y.2.2), MultiBody.entry_unflat _ hi ha]
    have : (Pi.single y 1 : mb.Ix → ℝ) ⟨⟨i, hi⟩, ⟨a, ha⟩⟩ = if i = y.1 ∧ a = y.2 then 1 else 0 := by
      rw [Pi.single_apply]
      obtain ⟨⟨i', hi'⟩, ⟨a', ha'⟩⟩ := y
      by_cases h : i = i'
      · subst h
        simp
      · simp [h]
    simp only [Pi.add_apply, Pi.smul_apply, smul_eq_mul, this, mul_ite, mul_one, mul_zero]
    rfl

/-- The torque of one degree of freedom that moves the robot along the path. -/
noncomputable def need (mb : MultiBody ℝ) (m : MBC ℝ) (y : mb.Ix) : ℝ :=
  ((mb.SAt y.1).getD y.2 0).dot (mb.wrenchAt m.q (mb.netForceAt m.q m.alpha m.alphaD ⟨0, m.gravity⟩ m.forceAt) y.1)

theorem Path.forceAt (h : Path mb γ mbc) (t : ℝ) (k : Nat) : (mbc t).forceAt k = 0 := by
  unfold MBC.forceAt
  cases e : (mbc t).force[k]? with
  | none => rfl
  | some f => exact h.force t f (List.mem_of_getElem? e)

theorem Path.dq (h : Path mb γ mbc) (M : Machine mb solve) (t : ℝ) : HasDerivAt (fun s => mb.flat (mbc s).q) (mb.flat (mbc t).alpha) t :=
  hasDerivAt_pi.2 fun x => by
    obtain ⟨j, e, -⟩ := M.wf.joint_get x.1.2
    have hp : j.type.Plain := M.simple j (List.mem_of_getElem? e)
    have := ((h.moves t).rate x.1 j e).2 x.2
    rw [coordRate_plain hp] at this
    exact this

theorem Path.dα (h : Path mb γ mbc) (t : ℝ) : HasDerivAt (fun s => mb.flat (mbc s).alpha) (mb.flat (mbc t).alphaD) t :=
  hasDerivAt_pi.2 fun x => (h.rate t x.1 x.1.2).2 x.2

theorem Path.need_continuous (h : Path mb γ mbc) (M : Machine mb solve) : Continuous fun t => need mb (mbc t) := by
  have cq : Continuous fun t => mb.flat (mbc t).q := continuous_iff_continuousAt.2 fun t => (h.dq M t).continuousAt
  have cα : Continuous fun t => mb.flat (mbc t).alpha := continuous_iff_continuousAt.2 fun t => (h.dα t).continuousAt
  refine continuous_pi fun y => ?_
  have hq : DiffDof mb fun w : (mb.Ix → ℝ) × (mb.Ix → ℝ) => mb.unflat w.1 := .unflat M.wf contDiff_fst
  have ha : DiffDof mb fun w : (mb.Ix → ℝ) × (mb.Ix → ℝ) => mb.unflat w.2 := .unflat M.wf contDiff_snd
  have hb := hq.biasAt M.wf M.simple ha ⟨0, γ⟩ (fe := fun _ _ => 0) (fun k hk => ⟨.const _, .const _⟩) y.1 y.2
  have hm := fun z : mb.Ix => hq.massAt M.wf M.simple y.1 y.2 z.1 z.2
  have hb' := hb.continuous.comp (cq.prodMk cα)
  have hm' := fun z : mb.Ix => (hm z).continuous.comp (cq.prodMk cα)
  have := (continuous_finsetSum Finset.univ fun z _ => (hm' z).mul (h.acc z.1 z.2)).add hb'
  refine this.congr fun t => ?_
  unfold need
  rw [M.wf.torque_split, MultiBody.dofSum_ix, h.gravity t, show (mbc t).forceAt = fun _ => 0 from funext (h.forceAt t)]
  simp only [Pi.add_apply, Pi.mul_apply, Function.comp_apply, MultiBody.unflat_flat M.wf (M.sizedQ.1 (h.sized t).q), MultiBody.unflat_flat M.wf (h.sized t).alpha]
  rfl

/-- Lagrange's equations as partial derivatives. -/
theorem Path.lagrange (h : Path mb γ mbc) (M : Machine mb solve) : ∃ p p' : ℝ → mb.Ix → ℝ,
    (∀ y t, HasDerivAt (fun s => p s y) (p' t y) t) ∧
    (∀ y t, fderiv ℝ (lagr mb γ) (mb.flat (mbc t).q, mb.flat (mbc t).alpha) (0, Pi.single y 1) = p t y) ∧
    (∀ y t, fderiv ℝ (lagr mb γ) (mb.flat (mbc t).q, mb.flat (mbc t).alpha) (Pi.single y 1, 0) = p' t y - need mb (mbc t) y) := by
  have hd : mb.DirOK := fun j hj => Or.inr (M.simple j hj)
  have hL : ∀ w, HasFDerivAt (lagr mb γ) (fderiv ℝ (lagr mb γ) w) w := fun w => ((lagr_diff M).differentiable one_ne_zero w).hasFDerivAt
  have key : ∀ y t, ∃ p' Tq Uq, HasDerivAt (fun s => mb.genMom (mbc s).q (mbc s).alpha y.1 y.2) p' t ∧
      HasDerivAt (fun x => mb.kinE (bump (mbc t).q y.1 y.2 x) (mbc t).alpha) Tq 0 ∧ HasDerivAt (fun x => mb.potE γ (bump (mbc t).q y.1 y.2 x)) Uq 0 ∧
      need mb (mbc t) y = p' - Tq + Uq := by
    intro y t
    obtain ⟨j, hj, -⟩ := M.wf.joint_get y.1.2
    have ha : (y.2 : Nat) < j.dof := by simpa [MultiBody.dofAt, hj] using y.2.2
    have ht : j.type.Holonomic := by
      rcases M.simple j (List.mem_of_getElem? hj) with e | e | e | e
      · exact .inl e
      · exact .inr (.inl e)
      · exact .inr (.inr e)
      · rw [(M.wf.built j (List.mem_of_getElem? hj)).sizes.2, e] at ha
        exact absurd ha (Nat.not_lt_zero _)
    have hb := bump_trajectory M.rigid ((h.moves t).valid t) hj ht ha
    obtain ⟨p', Tq, Uq, h1, h2, h3, h4⟩ := mb.hamel (α := fun s => (mbc s).alpha) M.wf M.rigid hd (h.moves t) (h.rate t) y.1.2 y.2.2 hb
      (bump_zero _ y.1 y.2) γ fun _ => 0
    rw [M.wf.jointMotion_commutes M.rigid hj ht y.1.2, MotionVec.zero_dot, add_zero] at h4
    refine ⟨p', Tq, Uq, h1, h2, h3, ?_⟩
    unfold need
    rw [h.gravity t, show (mbc t).forceAt = fun _ => 0 from funext (h.forceAt t), h4, Finset.sum_eq_zero fun k _ => ?_, sub_zero]
    simp [PTransform.dualMul, MotionVec.dot]
  choose p' Tq Uq h1 h2 h3 h4 using key
  refine ⟨fun t y => mb.genMom (mbc t).q (mbc t).alpha y.1 y.2, fun t y => p' y t, h1, fun y t => ?_, fun y t => ?_⟩
  · have e1 : HasDerivAt (fun x : ℝ => (mb.flat (mbc t).q, mb.flat (mbc t).alpha + x • (Pi.single y 1 : mb.Ix → ℝ))) (0, Pi.single y 1) 0 := by
      refine (hasDerivAt_const _ _).prodMk ?_
      simpa using ((hasDerivAt_id (0 : ℝ)).smul_const (Pi.single y 1 : mb.Ix → ℝ)).const_add (mb.flat (mbc t).alpha)
    have e2 := (hL (mb.flat (mbc t).q, mb.flat (mbc t).alpha + (0 : ℝ) • (Pi.single y 1 : mb.Ix → ℝ))).comp_hasDerivAt (0 : ℝ) e1
    rw [zero_smul, add_zero] at e2
    refine e2.unique ?_
    have e3 := (M.wf.kinE_bump (h.sized t).alpha y.1.2 y.2.2 (mbc t).q).sub_const (mb.potE γ (mbc t).q)
    refine e3.congr_of_eventuallyEq (.of_forall fun x => ?_)
    unfold lagr
    simp only [Function.comp, MultiBody.unflat_flat M.wf (M.sizedQ.1 (h.sized t).q), bump_unflat M (h.sized t).alpha]
  · have e1 : HasDerivAt (fun x : ℝ => (mb.flat (mbc t).q + x • (Pi.single y 1 : mb.Ix → ℝ), mb.flat (mbc t).alpha)) (Pi.single y 1, 0) 0 := by
      refine HasDerivAt.prodMk ?_ (hasDerivAt_const _ _)
      simpa using ((hasDerivAt_id (0 : ℝ)).smul_const (Pi.single y 1 : mb.Ix → ℝ)).const_add (mb.flat (mbc t).q)
    have e2 := (hL (mb.flat (mbc t).q + (0 : ℝ) • (Pi.single y 1 : mb.Ix → ℝ), mb.flat (mbc t).alpha)).comp_hasDerivAt (0 : ℝ) e1
    rw [zero_smul, add_zero] at e2
    rw [h4 y t, show p' y t - (p' y t - Tq y t + Uq y t) = Tq y t - Uq y t by ring]
    refine e2.unique (((h2 y t).sub (h3 y t)).congr_of_eventuallyEq (.of_forall fun x => ?_))
    unfold lagr
    simp only [Function.comp, Pi.sub_apply, MultiBody.unflat_flat M.wf (h.sized t).alpha, bump_unflat M (M.sizedQ.1 (h.sized t).q)]

theorem Path.action_rate (h : Path mb γ mbc) (M : Machine mb solve) {T : List (List ℝ) → List (List ℝ) → ℝ} {U : List (List ℝ) → ℝ}
    (hE : ∀ t, Energies mb (mbc t) T U) (hη : Variation a b η η') :
    HasDerivAt (action mb T U mbc a b η η') (-∫ t in a..b, ∑ y, need mb (mbc t) y * η t y.1 y.2) 0 := by
  obtain ⟨p, p', h1, h2, h3⟩ := h.lagrange M
  have key := action_variation (a := a) (b := b) (η := fun t (y : mb.Ix) => η t y.1 y.2) (η' := fun t y => η' t y.1 y.2) (lagr_diff M (γ := γ))
    (continuous_iff_continuousAt.2 fun t => (h.dq M t).continuousAt) (continuous_iff_continuousAt.2 fun t => (h.dα t).continuousAt)
    (fun t => hasDerivAt_pi.2 fun y => hη.rate t y.1 y.2) (continuous_pi fun y => hη.smooth y.1 y.2) (h.need_continuous M) h1 h2 h3
    (funext fun y => hη.start y.1 y.2) (funext fun y => hη.stop y.1 y.2)
  refine key.congr_of_eventuallyEq (.of_forall fun ε => ?_)
  unfold action
  refine intervalIntegral.integral_congr fun t _ => ?_
  have e := energies_unique M (h.sized t) (hE t) (q := mb.displaced (mbc t).q ε (η t))
    (α := mb.displaced (mbc t).alpha ε (η' t)) (mb.ofEntries_sized M.wf _) (mb.ofEntries_sized M.wf _)
  simp only [lagr]
  rw [e.1, e.2, h.gravity t, displaced_eq M, displaced_eq M]

/-- C97: when a robot follows a path under gravity, the integral of kinetic minus potential energy changes with every variation of the path at a rate which is
minus the work of the torques of `inverseDynamics` along the variation. -/
theorem C97_action (M : Machine mb solve) (h : Path mb γ mbc) {T : List (List ℝ) → List (List ℝ) → ℝ} {U : List (List ℝ) → ℝ}
    (hE : ∀ t, Energies mb (mbc t) T U) (hη : Variation a b η η') {N : ℝ → List (List ℝ)}
    (hN : ∀ t, ∃ (d d' : ID ℝ) (m : MBC ℝ), d.f.length = mb.nrBodies ∧ d.inverseDynamics mb (mbc t) = .ok (d', m) ∧ m.jointTorque = N t) :
    HasDerivAt (action mb T U mbc a b η η') (-∫ t in a..b, mb.dofSum fun i x => entry (N t) i x * η t i x) 0 := by
  refine (h.action_rate M hE hη).congr_deriv (congrArg _ (intervalIntegral.integral_congr fun t _ => ?_))
  obtain ⟨d, d', m, hd, e, hm⟩ := hN t
  rw [id_eq M.wf M.rigid (h.sized t) ((h.moves t).valid t) (h.ready t) hd rfl] at e
  cases e
  rw [MultiBody.dofSum_ix]
  refine Finset.sum_congr rfl fun y _ => ?_
  rw [← hm]
  exact congrArg (· * _) (entry_torque M.wf y.1.2 y.2.2).symm

/-- Forward dynamics computes the accelerations of the path if and only if the torques are those that the path needs. -/
theorem Path.dynamics_iff (h : Path mb γ mbc) (M : Machine mb solve) (t : ℝ) :
    (∃ fd fd' m, FD.Fits mb fd ∧ fd.forwardDynamics solve mb (mbc t) = .ok (fd', m) ∧ m.alphaD = (mbc t).alphaD) ↔
      mb.flat (mbc t).jointTorque = need mb (mbc t) := by
  have hq := (h.moves t).valid t
  have key := accOf_iff M.wf M.rigid hq M.inertia M.subspace (mbc t).alpha (mbc t).jointTorque ⟨0, (mbc t).gravity⟩ (mbc t).forceAt (mbc t).alphaD
  have hn : mb.flat (mbc t).jointTorque = need mb (mbc t) ↔ mb.flat (mbc t).alphaD =
      accelAt mb (fun _ _ _ => (mbc t).jointTorque) (fun _ _ _ => (mbc t).force) γ ((mbc t).coords mb t) := by
    unfold accelAt MBC.coords
    dsimp only
    rw [MultiBody.unflat_flat M.wf (M.sizedQ.1 (h.sized t).q), MultiBody.unflat_flat M.wf (h.sized t).alpha, ← h.gravity t]
    refine Iff.trans ⟨fun e i x hi hx => congrFun e ⟨⟨i, hi⟩, ⟨x, hx⟩⟩, fun e => funext fun y => e y.1 y.2 y.1.2 y.2.2⟩ key
  rw [hn]
  constructor
  · rintro ⟨fd, fd', m, hf, e, hm⟩
    obtain ⟨fd₁, r, e1, -, hr⟩ := M.acc (law := fun _ _ _ => (mbc t).jointTorque) (env := fun _ _ _ => (mbc t).force) (t := t) (h.sized t) (h.ready t)
      (h.gravity t) rfl rfl hf
    rw [e] at e1
    cases e1
    rw [← hr, ← hm]
  · intro e
    obtain ⟨fd, -, hf⟩ := FD.mk'_fits M.wf (⟨⟨0, 0, fun _ _ => 0⟩, [], [], [], [], [], [], []⟩ : FD ℝ)
    obtain ⟨fd₁, r, e1, hs, hr⟩ := M.acc (law := fun _ _ _ => (mbc t).jointTorque) (env := fun _ _ _ => (mbc t).force) (t := t) (h.sized t) (h.ready t)
      (h.gravity t) rfl rfl hf
    exact ⟨fd, fd₁, _, hf, e1, flat_inj M.wf hs (h.sized t).alphaD (hr.trans e.symm)⟩

/-- C97, Hamilton's principle: forward dynamics computes the accelerations of a path from its torques, at all times from `a` to `b`, if and only if for every
variation of the path between these times the rate of the integral of kinetic minus potential energy is minus the work of the torques. -/
theorem C97_stationary (M : Machine mb solve) (h : Path mb γ mbc) {T : List (List ℝ) → List (List ℝ) → ℝ} {U : List (List ℝ) → ℝ}
    (hE : ∀ t, Energies mb (mbc t) T U) (hab : a < b) :
    (∀ t ∈ Set.Icc a b, ∃ fd fd' m, FD.Fits mb fd ∧ fd.forwardDynamics solve mb (mbc t) = .ok (fd', m) ∧ m.alphaD = (mbc t).alphaD) ↔
      ∀ η η', Variation a b η η' →
        HasDerivAt (action mb T U mbc a b η η') (-∫ t in a..b, mb.dofSum fun i x => entry (mbc t).jointTorque i x * η t i x) 0 := by
  constructor
  · intro hd η η' hη
    refine (h.action_rate M hE hη).congr_deriv (congrArg _ (intervalIntegral.integral_congr fun t ht => ?_))
    rw [Set.uIcc_of_le hab.le] at ht
    rw [MultiBody.dofSum_ix]
    refine Finset.sum_congr rfl fun y _ => ?_
    rw [← (h.dynamics_iff M t).1 (hd t ht)]
    rfl
  · intro hs t ht
    rw [h.dynamics_iff M t, ← sub_eq_zero]
    have cτ : Continuous fun t => mb.flat (mbc t).jointTorque := continuous_pi fun y => h.torque y.1 y.2
    have cn := h.need_continuous M
    refine zero_of_variations hab (N := fun t => mb.flat (mbc t).jointTorque - need mb (mbc t)) (cτ.sub cn) (fun ζ ζ' h1 h2 h3 h4 => ?_) t ht
    have cζ : Continuous ζ := continuous_iff_continuousAt.2 fun t => (h1 t).continuousAt
    have hη : Variation a b (fun t => entry (mb.unflat (ζ t))) (fun t => entry (mb.unflat (ζ' t))) := by
      have key : ∀ (i x : Nat), (∃ (hi : i < mb.bodies.length) (hx : x < mb.dofAt i), ∀ v : mb.Ix → ℝ, entry (mb.unflat v) i x = v ⟨⟨i, hi⟩, ⟨x, hx⟩⟩) ∨
          ∀ v : mb.Ix → ℝ, entry (mb.unflat v) i x = 0 := fun i x => by
        by_cases hix : i < mb.bodies.length ∧ x < mb.dofAt i
        · exact .inl ⟨hix.1, hix.2, fun v => MultiBody.entry_unflat v hix.1 hix.2⟩
        · exact .inr fun v => entry_beyond M.wf (mb.unflat_sized M.wf v) hix
      refine ⟨fun t i x => ?_, fun i x => ?_, fun i x => ?_, fun i x => ?_⟩
      all_goals rcases key i x with ⟨hi, hx, e⟩ | e
      all_goals simp only [e]
      · exact hasDerivAt_pi.1 (h1 t) _
      · exact hasDerivAt_const t 0
      · exact (continuous_apply _).comp h2
      · exact continuous_const
      · exact congrFun h3 _
      · exact congrFun h4 _
    have e := (hs _ _ hη).unique (h.action_rate M hE hη)
    have e0 : ∀ (t : ℝ) (y : mb.Ix), entry (mb.unflat (ζ t)) y.1 y.2 = ζ t y := fun t y => MultiBody.entry_unflat _ y.1.2 y.2.2
    simp only [MultiBody.dofSum_ix, e0, neg_inj] at e
    have c1 : Continuous fun t => ∑ y, entry (mbc t).jointTorque y.1 y.2 * ζ t y :=
      continuous_finsetSum _ fun y _ => (h.torque y.1 y.2).mul ((continuous_apply y).comp cζ)
    have c2 : Continuous fun t => ∑ y, need mb (mbc t) y * ζ t y :=
      continuous_finsetSum _ fun y _ => ((continuous_apply y).comp cn).mul ((continuous_apply y).comp cζ)
    rw [← sub_eq_zero, ← intervalIntegral.integral_sub (c1.intervalIntegrable _ _) (c2.intervalIntegrable _ _)] at e
    rw [← e]
    refine intervalIntegral.integral_congr fun t _ => ?_
    rw [← Finset.sum_sub_distrib]
    exact Finset.sum_congr rfl fun y _ => sub_mul _ _ _

/-- C97 without motors: a robot with passive joints falls along the paths on which the integral is stationary, and only along these. -/
theorem C97_passive (M : Machine mb solve) (h : Path mb γ mbc) {T : List (List ℝ) → List (List ℝ) → ℝ} {U : List (List ℝ) → ℝ}
    (hE : ∀ t, Energies mb (mbc t) T U) (hab : a < b) (hτ : ∀ t i x, entry (mbc t).jointTorque i x = 0) :
    (∀ t ∈ Set.Icc a b, ∃ fd fd' m, FD.Fits mb fd ∧ fd.forwardDynamics solve mb (mbc t) = .ok (fd', m) ∧ m.alphaD = (mbc t).alphaD) ↔
      ∀ η η', Variation a b η η' → HasDerivAt (action mb T U mbc a b η η') 0 0 := by
  rw [C97_stationary M h hE hab]
  simp [hτ, MultiBody.dofSum]

variable {law : ℝ → List (List ℝ) → List (List ℝ) → List (List ℝ)}

/-- The motions under a smooth control law are paths. -/
theorem Motion.path (M : Machine mb solve) (hl : SmoothLaw mb law) (h : Motion mb solve law (calm mb) γ Set.univ mbc) : Path mb γ mbc := by
  have cw : Continuous fun t => (mbc t).coords mb t := continuous_iff_continuousAt.2 fun t => (h.flow M (Set.mem_univ t)).continuousAt
  refine ⟨fun t => h.sized t trivial, fun t => h.ready t trivial, fun t => h.moves t trivial, fun t => h.rate t trivial, fun t => h.gravity t trivial,
    fun t f hf => ?_, fun i x => ?_, fun i x => ?_⟩
  · rw [h.force t trivial] at hf
    exact List.eq_of_mem_replicate hf
  · have e : ∀ t, mb.flat (mbc t).alphaD = accelAt mb law (calm mb) γ ((mbc t).coords mb t) := fun t => by
      obtain ⟨fd, fd', m, hfit, e, hm⟩ := h.dynamics t trivial
      obtain ⟨fd₁, r, e1, -, hr⟩ := M.acc (h.sized t trivial) (h.ready t trivial) (h.gravity t trivial) (h.torque t trivial) (h.force t trivial) hfit
      rw [e] at e1
      cases e1
      rw [← hr, ← hm]
    by_cases hix : i < mb.bodies.length ∧ x < mb.dofAt i
    · have := (continuous_apply (⟨⟨i, hix.1⟩, ⟨x, hix.2⟩⟩ : mb.Ix)).comp ((accelAt_diff M hl calm_smooth γ).continuous.comp cw)
      refine this.congr fun t => ?_
      exact (congrFun (e t) ⟨⟨i, hix.1⟩, ⟨x, hix.2⟩⟩).symm
    · simp only [entry_beyond M.wf (h.sized _ trivial).alphaD hix]
      exact continuous_const
  · refine ((DiffDof.entry M.wf hl i x).continuous.comp cw).congr fun t => ?_
    unfold MBC.coords
    rw [h.torque t trivial, Function.comp_apply, MultiBody.unflat_flat M.wf (M.sizedQ.1 (h.sized t trivial).q),
      MultiBody.unflat_flat M.wf (h.sized t trivial).alpha]

/-- C97 for the motions of C88 to C96: their integral of kinetic minus potential energy is stationary up to the work of the control law. -/
theorem C97_motion (M : Machine mb solve) (hl : SmoothLaw mb law) (h : Motion mb solve law (calm mb) γ Set.univ mbc)
    {T : List (List ℝ) → List (List ℝ) → ℝ} {U : List (List ℝ) → ℝ} (hE : ∀ t, Energies mb (mbc t) T U) (hab : a < b) (hη : Variation a b η η') :
    HasDerivAt (action mb T U mbc a b η η') (-∫ t in a..b, mb.dofSum fun i x => entry (law t (mbc t).q (mbc t).alpha) i x * η t i x) 0 := by
  have := (C97_stationary M (h.path M hl) hE hab).1 (fun t _ => h.dynamics t trivial) η η' hη
  simp only [h.torque _ trivial] at this
  exact this

/-- A variation of one degree of freedom. -/
theorem Sample.variation : Variation 0 1 (fun t i x => if i = 0 ∧ x = 0 then t * (1 - t) else 0) (fun t i x => if i = 0 ∧ x = 0 then 1 - 2 * t else 0) := by
  refine ⟨fun t i x => ?_, fun i x => ?_, fun i x => ?_, fun i x => ?_⟩
  all_goals by_cases h : i = 0 ∧ x = 0
  all_goals simp only [h, if_true, if_false, and_self]
  · refine ((hasDerivAt_id t).mul ((hasDerivAt_id t).const_sub 1)).congr_deriv ?_
    show 1 * (1 - t) + t * -1 = _
    ring
  · exact hasDerivAt_const t 0
  · fun_prop
  · exact continuous_const
  · simp
  · simp

/-- A pendulum that swings freely: its motion is a path of stationary action, along which the hypotheses of `C97_action`, `C97_stationary`, `C97_passive` and
`C97_motion` hold. -/
example : ∃ (mb : MultiBody ℝ) (solve : DMat ℝ → List ℝ → List ℝ) (mbc : ℝ → MBC ℝ) (T : List (List ℝ) → List (List ℝ) → ℝ) (U : List (List ℝ) → ℝ),
    mb.joints.map (·.type) = [.Rev] ∧ Machine mb solve ∧ Path mb ⟨0, 0, 9⟩ mbc ∧ (∀ t, Energies mb (mbc t) T U) ∧ (mbc 0).q ≠ [] ∧ entry (mbc 0).alpha 0 0 = 1 ∧
    (∀ t i x, entry (mbc t).jointTorque i x = 0) ∧
    (∀ t, ∃ (d d' : ID ℝ) (m : MBC ℝ), d.f.length = mb.nrBodies ∧ d.inverseDynamics mb (mbc t) = .ok (d', m)) ∧
    HasDerivAt (action mb T U mbc 0 1 (fun t i x => if i = 0 ∧ x = 0 then t * (1 - t) else 0) (fun t i x => if i = 0 ∧ x = 0 then 1 - 2 * t else 0)) 0 0 := by
  obtain ⟨mb, solve, M, ht, hl, hdof, hsz, -⟩ := Sample.pendulum
  obtain ⟨c, e1, e2, h⟩ := C90_forever M (pdLaw_smooth M) calm_smooth (pdLaw_linear M (kp := fun _ _ => 0) (kd := fun _ _ => 0) (goal := [])) (calm_linear M)
    ⟨0, 0, 9⟩ (hsz 0) (hsz 1) 0
  have P := h.path M (pdLaw_smooth M)
  have hE : ∀ t, Energies mb (c t) mb.kinE (mb.potE ⟨0, 0, 9⟩) := fun t => by
    have := energies M.wf M.rigid (P.sized t)
    rwa [P.gravity t] at this
  have hτ : ∀ t i x, entry (c t).jointTorque i x = 0 := fun t i x => by
    by_cases hix : i < mb.bodies.length ∧ x < mb.dofAt i
    · rw [h.torque t trivial]
      unfold pdLaw
      rw [mb.entry_ofEntries _ hix.1 hix.2]
      ring
    · exact entry_beyond M.wf (P.sized t).jointTorque hix
  refine ⟨mb, solve, c, _, _, ht, M, P, hE, by rw [e1]; simp, by rw [e2]; rfl, hτ, fun t => ?_,
    (C97_passive M P hE one_pos hτ).1 (fun t _ => h.dynamics t trivial) _ _ Sample.variation⟩
  exact ⟨⟨List.replicate mb.nrBodies 0⟩, _, _, List.length_replicate,
    id_eq M.wf M.rigid (P.sized t) ((P.moves t).valid t) (P.ready t) List.length_replicate rfl⟩

end RBDyn
