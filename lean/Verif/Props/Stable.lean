import Verif.Lemmas.Dirichlet
import Verif.Props.Settles

/-! Property C95: a robot under gravity, with springs and dampers or without, is stable where its potential energy is a strict minimum, and dampers bring it to rest
there. -/

namespace RBDyn
open scoped Mat3 Topology
open Filter

/-- The potential energy of the weight of the bodies, whose poses are stored in the state, and of the springs. -/
noncomputable def MBC.potential (mb : MultiBody ℝ) (kp : Nat → Nat → ℝ) (goal : List (List ℝ)) (m : MBC ℝ) : ℝ :=
  ∑ k ∈ Finset.range mb.nrBodies, m.gravity.dot (massPos ((m.bodyPosW[k]?).getD 1) (mb.inertiaAt k)) + m.springEnergy mb kp goal

/-- The potential energy has a strict minimum at the positions `q₀`, compared with all others that differ by at most `r`. -/
def StrictMin (mb : MultiBody ℝ) (γ : Vec3 ℝ) (kp : Nat → Nat → ℝ) (goal q₀ : List (List ℝ)) (r : ℝ) : Prop :=
  ∀ m m₀ : MBC ℝ, m.Sized mb → m.PosReady mb → m.gravity = γ → m₀.Sized mb → m₀.PosReady mb → m₀.gravity = γ → m₀.q = q₀ →
    (∀ i a, i < mb.bodies.length → a < mb.dofAt i → |entry m.q i a - entry q₀ i a| ≤ r) → m.q ≠ q₀ → m₀.potential mb kp goal < m.potential mb kp goal

/-- Up to a distance of `r` the springs carry the weight only at `q₀`: only there the torques of `inverseStatics` are those of the springs. -/
def OnlyBalance (mb : MultiBody ℝ) (γ : Vec3 ℝ) (kp : Nat → Nat → ℝ) (goal q₀ : List (List ℝ)) (r : ℝ) : Prop :=
  ∀ (m m' : MBC ℝ) (d d' : ID ℝ), m.Sized mb → m.PosReady mb → m.gravity = γ → (∀ f ∈ m.force, f = 0) → d.f.length = mb.nrBodies →
    inverseStatics d mb m = .ok (d', m') → (∀ i a, i < mb.bodies.length → a < mb.dofAt i → |entry m.q i a - entry q₀ i a| ≤ r) →
    (∀ i a, i < mb.bodies.length → a < mb.dofAt i → entry m'.jointTorque i a = -kp i a * (entry m.q i a - entry goal i a)) → m.q = q₀

variable {mb : MultiBody ℝ} {solve : DMat ℝ → List ℝ → List ℝ} {γ : Vec3 ℝ} {kp kd : Nat → Nat → ℝ} {goal q₀ : List (List ℝ)}

/-! ### The potential as a function of numbers -/

/-- Twice the potential energy. -/
noncomputable def MultiBody.potential2 (mb : MultiBody ℝ) (γ : Vec3 ℝ) (kp : Nat → Nat → ℝ) (goal : List (List ℝ)) (q : mb.Ix → ℝ) : ℝ :=
  2 * ∑ k ∈ Finset.range mb.bodies.length, γ.dot (massPos (mb.posAt (mb.unflat q) k) (mb.inertiaAt k)) +
    ∑ y : mb.Ix, kp y.1 y.2 * (q y - entry goal y.1 y.2) ^ 2

theorem potential2_eq (M : Machine mb solve) {m : MBC ℝ} (sz : m.Sized mb) (hv : m.PosReady mb) :
    mb.potential2 m.gravity kp goal (mb.flat m.q) = 2 * m.potential mb kp goal := by
  unfold MultiBody.potential2 MBC.potential MBC.springEnergy
  rw [MultiBody.unflat_flat M.wf (M.sizedQ.1 sz.q), MultiBody.dofSum_ix, mul_add, ← mul_assoc 2 (1 / 2 : ℝ)]
  norm_num
  refine congrArg₂ _ ?_ rfl
  refine congrArg _ (Finset.sum_congr rfl fun k hk => ?_)
  have hk' : k < mb.bodies.length := Finset.mem_range.1 hk
  rw [hv.bodyPosW, range_map_getElem? hk', Option.getD_some]

theorem potential2_continuous (M : Machine mb solve) : Continuous (mb.potential2 γ kp goal) := by
  have hq : DiffDof mb fun q : mb.Ix → ℝ => mb.unflat q := .unflat M.wf contDiff_id
  unfold MultiBody.potential2
  refine (continuous_const.mul (continuous_finsetSum _ fun k _ => ?_)).add (continuous_finsetSum _ fun y _ => ?_)
  · have h := hq.posAt M.wf M.simple k
    have h1 := h.r.dot (DiffVec.const γ)
    have h2 := (h.E.tr.mulVec (DiffVec.const (mb.inertiaAt k).h)).dot (DiffVec.const γ)
    have := h2.continuous.add (continuous_const (y := (mb.inertiaAt k).m) |>.mul h1.continuous)
    refine this.congr fun q => ?_
    unfold massPos
    simp only [Pi.add_apply, Pi.mul_apply, Vec3.dot, Vec3.add_x, Vec3.add_y, Vec3.add_z, Vec3.smul_x, Vec3.smul_y, Vec3.smul_z]
    ring
  · fun_prop

/-- Along a motion the energy decreases with the power of the dampers. -/
theorem weightEnergy_rate (M : Machine mb solve) {x : ℝ → mb.Space} {t : ℝ}
    (hx : HasDerivAt x (RBDyn.flow mb (pdLaw mb kp kd goal) (calm mb) γ (x t)) t) :
    HasDerivAt (fun s => mb.kin2 (mb.unflat (x s).2.1) (mb.unflat (x s).2.2) + mb.potential2 γ kp goal (x s).2.1)
      (-∑ y : mb.Ix, 2 * kd y.1 y.2 * (x t).2.2 y ^ 2) t := by
  have hk := M.kin2_rate rfl hx
  have hd : mb.DirOK := fun j hj => Or.inr (M.simple j hj)
  have dq : HasDerivAt (fun s => (x s).2.1) (x t).2.2 t := ((ContinuousLinearMap.fst ℝ (mb.Ix → ℝ) (mb.Ix → ℝ)).comp
    (ContinuousLinearMap.snd ℝ ℝ ((mb.Ix → ℝ) × (mb.Ix → ℝ)))).hasFDerivAt.comp_hasDerivAt t hx
  have hm : Trajectory mb (fun s => mb.unflat (x s).2.1) (mb.unflat (x t).2.2) t := unflat_moves M dq
  have hg : HasDerivAt (fun s => ∑ k ∈ Finset.range mb.bodies.length, γ.dot (massPos (mb.posAt (mb.unflat (x s).2.1) k) (mb.inertiaAt k)))
      (∑ k ∈ Finset.range mb.bodies.length, (mb.velAt (mb.unflat (x t).2.1) (mb.unflat (x t).2.2) k).dot
        ((mb.inertiaAt k).mulMotion ((mb.posAt (mb.unflat (x t).2.1) k).mulMotion ⟨0, γ⟩))) t := by
    refine HasDerivAt.fun_sum fun k hk => ?_
    have hk : k < mb.bodies.length := Finset.mem_range.1 hk
    have h1 := (HasDerivVec.const γ t).dot (massPos_hasDeriv (mb.posAt_hasVelocity M.wf M.rigid hd hm hk) (mb.inertiaAt k))
    refine h1.congr_deriv ?_
    rw [RBInertia.dot_mulMotion_comm, Vec3.zero_dot, zero_add, Mat3.dot_mulVec, Mat3.tr_tr]
    simp [MotionVec.dot, PTransform.mulMotion]
  have hp : HasDerivAt (fun s => ∑ y : mb.Ix, kp y.1 y.2 * ((x s).2.1 y - entry goal y.1 y.2) ^ 2)
      (∑ y : mb.Ix, kp y.1 y.2 * (2 * ((x t).2.1 y - entry goal y.1 y.2) * (x t).2.2 y)) t := by
    refine HasDerivAt.fun_sum fun y _ => HasDerivAt.const_mul _ ?_
    refine (((hasDerivAt_pi.1 dq y).sub_const (entry goal y.1 y.2)).pow 2).congr_deriv ?_
    simp
  refine (hk.add ((hg.const_mul 2).add hp)).congr_deriv ?_
  have z1 : ∑ k ∈ Finset.range mb.bodies.length, (mb.velAt (mb.unflat (x t).2.1) (mb.unflat (x t).2.2) k).dot ((mb.posAt (mb.unflat (x t).2.1) k).dualMul
      (((calm mb (x t).1 (mb.unflat (x t).2.1) (mb.unflat (x t).2.2))[k]?).getD 0)) = 0 :=
    Finset.sum_eq_zero fun k _ => by rw [calm_get]; simp [PTransform.dualMul, MotionVec.dot]
  rw [z1, add_zero, ← Finset.sum_neg_distrib]
  have e : ∀ a b c : ℝ, 2 * (a - b) + (2 * b + c) = 2 * a + c := fun a b c => by ring
  rw [e, Finset.mul_sum, ← Finset.sum_add_distrib]
  refine Finset.sum_congr rfl fun y _ => ?_
  unfold pdLaw
  rw [mb.entry_ofEntries _ y.1.2 y.2.2, MultiBody.entry_unflat _ y.1.2 y.2.2, MultiBody.entry_unflat _ y.1.2 y.2.2]
  ring

/-- A strict minimum in terms of numbers. -/
theorem StrictMin.flat (M : Machine mb solve) (hq : SizedDof mb q₀) {r : ℝ} (h : StrictMin mb γ kp goal q₀ r) (q : mb.Ix → ℝ) (h1 : ‖q - mb.flat q₀‖ ≤ r)
    (h2 : q ≠ mb.flat q₀) : mb.potential2 γ kp goal (mb.flat q₀) < mb.potential2 γ kp goal q := by
  have hsz := fun v : mb.Ix → ℝ => mb.unflat_sized M.wf v
  have hf : (List.replicate mb.bodies.length (0 : ForceVec ℝ)).length = mb.bodies.length := by simp
  obtain ⟨m, sz, hv, e1, -, -, -, e4, -⟩ := config_exists M (hsz q) (hsz 0) (hsz 0) (hsz 0) hf γ
  obtain ⟨m₀, sz₀, hv₀, f1, -, -, -, f4, -⟩ := config_exists M hq (hsz 0) (hsz 0) (hsz 0) hf γ
  have key := h m m₀ sz hv.toPosReady e4 sz₀ hv₀.toPosReady f4 f1 (fun i a hi ha => by
    rw [e1, MultiBody.entry_unflat _ hi ha]
    exact (norm_le_pi_norm (q - mb.flat q₀) ⟨⟨i, hi⟩, ⟨a, ha⟩⟩).trans h1) (fun e => h2 (by
      rw [← e, e1, MultiBody.flat_unflat]))
  have k1 := potential2_eq M sz hv.toPosReady (kp := kp) (goal := goal)
  have k2 := potential2_eq M sz₀ hv₀.toPosReady (kp := kp) (goal := goal)
  rw [e1, e4, MultiBody.flat_unflat] at k1
  rw [f1, f4] at k2
  linarith

/-- At rest without acceleration the springs carry the weight. -/
theorem balance_of_rest (M : Machine mb solve) {m m' : MBC ℝ} {d d' : ID ℝ} (sz : m.Sized mb) (hv : m.PosReady mb) (hg : m.gravity = γ)
    (hf : ∀ f ∈ m.force, f = 0) (hl : d.f.length = mb.nrBodies) (hs : inverseStatics d mb m = .ok (d', m'))
    (h2 : accelAt mb (pdLaw mb kp kd goal) (calm mb) γ (0, mb.flat m.q, 0) = 0) {i a : Nat} (hi : i < mb.bodies.length) (ha : a < mb.dofAt i) :
    entry m'.jointTorque i a = -kp i a * (entry m.q i a - entry goal i a) := by
  rw [is_eq M.wf M.rigid sz (M.valid (M.sizedQ.1 sz.q)) hv hl rfl] at hs
  obtain ⟨-, rfl⟩ := Prod.mk.inj (Except.ok.inj hs)
  have hrest := unflat_rest M
  have e1 := MultiBody.unflat_flat M.wf (M.sizedQ.1 sz.q)
  dsimp only
  have hA := (accOf_iff M.wf M.rigid (M.valid (mb.unflat_sized M.wf (mb.flat m.q))) M.inertia M.subspace (mb.unflat 0)
    (pdLaw mb kp kd goal 0 (mb.unflat (mb.flat m.q)) (mb.unflat 0)) ⟨0, γ⟩ (fun k => ((calm mb 0 (mb.unflat (mb.flat m.q)) (mb.unflat 0))[k]?).getD 0)
    (mb.unflat (accelAt mb (pdLaw mb kp kd goal) (calm mb) γ (0, mb.flat m.q, 0)))).2 (MultiBody.flat_unflat _) i a hi ha
  rw [h2] at hA
  unfold pdLaw at hA
  rw [mb.entry_ofEntries _ hi ha, e1, MultiBody.entry_unflat _ hi ha] at hA
  rw [entry_torque M.wf hi ha, hg]
  have e : (0 : mb.Ix → ℝ) ⟨⟨i, hi⟩, ⟨a, ha⟩⟩ = 0 := rfl
  rw [e, mul_zero, sub_zero] at hA
  rw [hA, mb.dot_wrenchAt, mb.dot_wrenchAt]
  refine Finset.sum_congr rfl fun k _ => ?_
  rw [MultiBody.netForceAt, mb.accAt_rest _ hrest hrest, mb.velAt_rest _ hrest, calm_get]
  have hfe : m.forceAt k = 0 := by
    unfold MBC.forceAt
    rcases e : m.force[k]? with _ | f
    · rfl
    · exact hf f (List.mem_of_getElem? e)
  rw [hfe]
  simp [MotionVec.dot]

theorem OnlyBalance.flat (M : Machine mb solve) {r : ℝ} (h : OnlyBalance mb γ kp goal q₀ r) (q : mb.Ix → ℝ) (h1 : ‖q - mb.flat q₀‖ ≤ r)
    (h2 : accelAt mb (pdLaw mb kp kd goal) (calm mb) γ (0, q, 0) = 0) : q = mb.flat q₀ := by
  have hsz := fun v : mb.Ix → ℝ => mb.unflat_sized M.wf v
  obtain ⟨m, sz, hv, e1, -, -, e3, e4, -⟩ := config_exists M (hsz q) (hsz 0) (hsz 0) (hsz 0) (calm_smooth.length 0 (mb.unflat q) (mb.unflat 0)) γ
  have hl : (⟨List.replicate mb.bodies.length 0⟩ : ID ℝ).f.length = mb.bodies.length := by simp
  have hs := is_eq M.wf M.rigid sz (M.valid (M.sizedQ.1 sz.q)) hv.toPosReady hl rfl
  have hf : ∀ f ∈ m.force, f = 0 := fun f hf => by
    rw [e3] at hf
    exact List.eq_of_mem_replicate hf
  have key := h m _ _ _ sz hv.toPosReady e4 hf hl hs (fun i a hi ha => by
      rw [e1, MultiBody.entry_unflat _ hi ha]
      exact (norm_le_pi_norm (q - mb.flat q₀) ⟨⟨i, hi⟩, ⟨a, ha⟩⟩).trans h1) fun i a hi ha =>
    balance_of_rest M sz hv.toPosReady e4 hf hl hs (by rw [e1, MultiBody.flat_unflat]; exact h2) hi ha
  rw [← key, e1, MultiBody.flat_unflat]

/-! ### C95 -/

/-- C95: a robot under gravity, with springs and dampers or without, is stable where its potential energy is a strict minimum: motions that start sufficiently near and
slowly remain near and slow for ever. -/
theorem C95_stable (M : Machine mb solve) (hd : ∀ i a, i < mb.bodies.length → a < mb.dofAt i → 0 ≤ kd i a) (hq : SizedDof mb q₀) {r : ℝ} (hr : 0 < r)
    (hmin : StrictMin mb γ kp goal q₀ r) {ε : ℝ} (hε : 0 < ε) :
    ∃ δ, 0 < δ ∧ ∀ mbc : ℝ → MBC ℝ, Motion mb solve (pdLaw mb kp kd goal) (calm mb) γ (Set.Ici 0) mbc →
      (∀ i a, i < mb.bodies.length → a < mb.dofAt i → |entry (mbc 0).q i a - entry q₀ i a| < δ ∧ |entry (mbc 0).alpha i a| < δ) →
      ∀ t, 0 ≤ t → ∀ i a, i < mb.bodies.length → a < mb.dofAt i → |entry (mbc t).q i a - entry q₀ i a| < ε ∧ |entry (mbc t).alpha i a| < ε := by
  obtain ⟨C, hC, hent⟩ := M.entry_bound
  have hT : Continuous fun w : (mb.Ix → ℝ) × (mb.Ix → ℝ) => mb.kin2 (mb.unflat w.1) (mb.unflat w.2) := by
    have hq : DiffDof mb fun w : (mb.Ix → ℝ) × (mb.Ix → ℝ) => mb.unflat w.1 := .unflat M.wf contDiff_fst
    have ha : DiffDof mb fun w : (mb.Ix → ℝ) × (mb.Ix → ℝ) => mb.unflat w.2 := .unflat M.wf contDiff_snd
    unfold MultiBody.kin2
    exact continuous_finsetSum _ fun k _ => ((hq.velAt M.wf M.simple ha k).dot ((hq.velAt M.wf M.simple ha k).inertia _)).continuous
  obtain ⟨δ, hδ, key⟩ := dirichlet (potential2_continuous M) hr (hmin.flat M hq) hT (fun w => M.kin2_nonneg _ _) (by
    refine Finset.sum_eq_zero fun k _ => ?_
    dsimp only
    rw [mb.velAt_rest _ (unflat_rest M)]
    simp [MotionVec.dot]) hC (fun w => (pi_norm_le_iff_of_nonneg (by positivity)).2 fun y => by
      have := hent y (mb.unflat w.1) (mb.unflat w.2) (mb.unflat_sized M.wf _) (mb.unflat_sized M.wf _)
      rwa [MultiBody.entry_unflat _ y.1.2 y.2.2] at this) hε
  refine ⟨δ, hδ, fun mbc hm h0 t ht i a hi ha => ?_⟩
  have hx := fun t ht => hm.flow M (t := t) ht
  have hV := fun t ht => weightEnergy_rate M (hx t ht)
  have := key (fun t => ((mbc t).coords mb t).2.1) (fun t => ((mbc t).coords mb t).2.2)
    (fun t ht => (continuous_fst.comp continuous_snd).continuousAt.comp_continuousWithinAt (hx t ht).continuousAt.continuousWithinAt)
    (fun t ht => decreasing_le hV (fun s _ => by
      have : 0 ≤ ∑ y : mb.Ix, 2 * kd y.1 y.2 * ((mbc s).coords mb s).2.2 y ^ 2 := Finset.sum_nonneg fun y _ =>
        mul_nonneg (mul_nonneg two_pos.le (hd _ _ y.1.2 y.2.2)) (sq_nonneg _)
      linarith) ht)
    ((pi_norm_lt_iff hδ).2 fun y => (h0 y.1 y.2 y.1.2 y.2.2).1) ((pi_norm_lt_iff hδ).2 fun y => (h0 y.1 y.2 y.1.2 y.2.2).2) t ht
  exact ⟨(pi_norm_lt_iff hε).1 this.1 ⟨⟨i, hi⟩, ⟨a, ha⟩⟩, (pi_norm_lt_iff hε).1 this.2 ⟨⟨i, hi⟩, ⟨a, ha⟩⟩⟩

/-- Solutions of the differential equation that remain near the minimum come to rest there. -/
theorem flow_attracts (M : Machine mb solve) (hd : ∀ i a, i < mb.bodies.length → a < mb.dofAt i → 0 < kd i a) (hq : SizedDof mb q₀) {r : ℝ}
    (hmin : StrictMin mb γ kp goal q₀ r) (honly : OnlyBalance mb γ kp goal q₀ r) {x : ℝ → mb.Space}
    (hx : ∀ t, 0 ≤ t → HasDerivAt x (RBDyn.flow mb (pdLaw mb kp kd goal) (calm mb) γ (x t)) t) (nq : ∀ t, 0 ≤ t → ‖(x t).2.1 - mb.flat q₀‖ ≤ r)
    (na : ∀ t, 0 ≤ t → ‖(x t).2.2‖ ≤ r) : Tendsto (fun t => (x t).2.1) atTop (𝓝 (mb.flat q₀)) ∧ Tendsto (fun t => (x t).2.2) atTop (𝓝 0) := by
  set F := accelAt mb (pdLaw mb kp kd goal) (calm mb) γ with hF
  have hA : ContDiff ℝ 1 fun z : (mb.Ix → ℝ) × (mb.Ix → ℝ) => F (0, z.1, z.2) :=
    (accelAt_diff M (pdLaw_smooth M) calm_smooth γ).comp (contDiff_const.prodMk contDiff_id)
  have hdq : ∀ t, 0 ≤ t → HasDerivAt (fun s => (x s).2.1) (x t).2.2 t := fun t ht =>
    ((ContinuousLinearMap.fst ℝ (mb.Ix → ℝ) (mb.Ix → ℝ)).comp
        (ContinuousLinearMap.snd ℝ ℝ ((mb.Ix → ℝ) × (mb.Ix → ℝ)))).hasFDerivAt.comp_hasDerivAt t (hx t ht)
  have hda : ∀ t, 0 ≤ t → HasDerivAt (fun s => (x s).2.2) (F (0, (x t).2.1, (x t).2.2)) t := fun t ht =>
    ((ContinuousLinearMap.snd ℝ (mb.Ix → ℝ) (mb.Ix → ℝ)).comp
        (ContinuousLinearMap.snd ℝ ℝ ((mb.Ix → ℝ) × (mb.Ix → ℝ)))).hasFDerivAt.comp_hasDerivAt t (hx t ht)
  have hle : ∀ q, ‖q - mb.flat q₀‖ ≤ r → mb.potential2 γ kp goal (mb.flat q₀) ≤ mb.potential2 γ kp goal q := fun q h => by
    by_cases e : q = mb.flat q₀
    · rw [e]
    · exact (hmin.flat M hq q h e).le
  obtain ⟨h1, h2⟩ := comes_to_rest (A := fun z => F (0, z.1, z.2)) (q := fun s => (x s).2.1) (α := fun s => (x s).2.2)
    (V := fun s => mb.kin2 (mb.unflat (x s).2.1) (mb.unflat (x s).2.2) + mb.potential2 γ kp goal (x s).2.1 - mb.potential2 γ kp goal (mb.flat q₀))
    (D := fun y => 2 * kd y.1 y.2) (R := ‖mb.flat q₀‖ + r) hA (fun t ht => by
      rw [Prod.norm_def]
      refine max_le ?_ ((na t ht).trans (le_add_of_nonneg_left (norm_nonneg _)))
      have := norm_add_le (mb.flat q₀) ((x t).2.1 - mb.flat q₀)
      rw [add_sub_cancel] at this
      exact this.trans (add_le_add_right (nq t ht) _))
    hdq hda (fun y => mul_pos two_pos (hd _ _ y.1.2 y.2.2)) (fun t ht => by
      have := hle _ (nq t ht)
      have := M.kin2_nonneg (mb.unflat (x t).2.1) (mb.unflat (x t).2.2)
      linarith) (fun t ht => (weightEnergy_rate M (hx t ht)).sub_const _)
  have hin : Continuous fun q : mb.Ix → ℝ => ((q, 0) : (mb.Ix → ℝ) × (mb.Ix → ℝ)) := by fun_prop
  have hc : Continuous fun q : mb.Ix → ℝ => F (0, q, 0) := ((accelAt_diff M (pdLaw_smooth M) calm_smooth γ).continuous.comp ((Continuous.prodMk (continuous_const (y := (0:ℝ))) hin)) : Continuous ((accelAt mb (pdLaw mb kp kd goal) (calm mb) γ) ∘ fun q : mb.Ix → ℝ => ((0 : ℝ), q, (0 : mb.Ix → ℝ))))
  have hlim := tendsto_only_zero (f := fun q => F (0, q, 0)) hc (z := mb.flat q₀) (r := r)
    (fun q hq h => honly.flat M q hq h) (q := fun t => (x t).2.1) (by
      filter_upwards [eventually_ge_atTop 0] with t ht
      exact nq t ht) h2
  exact ⟨hlim, h1⟩

/-- C95: if moreover all joints are damped and the springs carry the weight nowhere else nearby, these motions come to rest at the minimum. -/
theorem C95_attracts (M : Machine mb solve) (hd : ∀ i a, i < mb.bodies.length → a < mb.dofAt i → 0 < kd i a) (hq : SizedDof mb q₀) {r : ℝ} (hr : 0 < r)
    (hmin : StrictMin mb γ kp goal q₀ r) (honly : OnlyBalance mb γ kp goal q₀ r) :
    ∃ δ, 0 < δ ∧ ∀ mbc : ℝ → MBC ℝ, Motion mb solve (pdLaw mb kp kd goal) (calm mb) γ (Set.Ici 0) mbc →
      (∀ i a, i < mb.bodies.length → a < mb.dofAt i → |entry (mbc 0).q i a - entry q₀ i a| < δ ∧ |entry (mbc 0).alpha i a| < δ) →
      ∀ i a, i < mb.bodies.length → a < mb.dofAt i → Tendsto (fun t => entry (mbc t).q i a) atTop (𝓝 (entry q₀ i a)) ∧
        Tendsto (fun t => entry (mbc t).alpha i a) atTop (𝓝 0) := by
  obtain ⟨δ, hδ, key⟩ := C95_stable M (fun i a hi ha => (hd i a hi ha).le) hq hr hmin hr
  refine ⟨δ, hδ, fun mbc hm h0 => ?_⟩
  have hst := key mbc hm h0
  have := flow_attracts M hd hq hmin honly (x := fun t => (mbc t).coords mb t) (fun t ht => hm.flow M ht)
    (fun t ht => (pi_norm_le_iff_of_nonneg hr.le).2 fun y => (hst t ht y.1 y.2 y.1.2 y.2.2).1.le)
    (fun t ht => (pi_norm_le_iff_of_nonneg hr.le).2 fun y => (hst t ht y.1 y.2 y.1.2 y.2.2).2.le)
  intro i a hi ha
  exact ⟨tendsto_pi_nhds.1 this.1 ⟨⟨i, hi⟩, ⟨a, ha⟩⟩, tendsto_pi_nhds.1 this.2 ⟨⟨i, hi⟩, ⟨a, ha⟩⟩⟩

/-- C95: at rest at the minimum the robot stays there. -/
theorem C95_rest (M : Machine mb solve) (hd : ∀ i a, i < mb.bodies.length → a < mb.dofAt i → 0 ≤ kd i a) (hq : SizedDof mb q₀) {r : ℝ} (hr : 0 < r)
    (hmin : StrictMin mb γ kp goal q₀ r) {mbc : ℝ → MBC ℝ} (hm : Motion mb solve (pdLaw mb kp kd goal) (calm mb) γ (Set.Ici 0) mbc) (h1 : (mbc 0).q = q₀)
    (h2 : ∀ i a, i < mb.bodies.length → a < mb.dofAt i → entry (mbc 0).alpha i a = 0) {t : ℝ} (ht : 0 ≤ t) {i a : Nat} (hi : i < mb.bodies.length)
    (ha : a < mb.dofAt i) : entry (mbc t).q i a = entry q₀ i a ∧ entry (mbc t).alpha i a = 0 := by
  have key : ∀ ε, 0 < ε → |entry (mbc t).q i a - entry q₀ i a| < ε ∧ |entry (mbc t).alpha i a| < ε := fun ε hε => by
    obtain ⟨δ, hδ, key⟩ := C95_stable M hd hq hr hmin hε
    refine key mbc hm (fun i a hi ha => ?_) t ht i a hi ha
    rw [h1, h2 i a hi ha, sub_self, abs_zero]
    exact ⟨hδ, hδ⟩
  exact ⟨sub_eq_zero.1 (abs_eq_zero.1 (le_antisymm (le_of_forall_pos_lt_add fun ε hε => by rw [zero_add]; exact (key ε hε).1) (abs_nonneg _))),
    abs_eq_zero.1 (le_antisymm (le_of_forall_pos_lt_add fun ε hε => by rw [zero_add]; exact (key ε hε).2) (abs_nonneg _))⟩

/-- Bounded solutions of the differential equation with dampers come to rest. -/
theorem flow_rests (M : Machine mb solve) (hd : ∀ i a, i < mb.bodies.length → a < mb.dofAt i → 0 < kd i a) {x : ℝ → mb.Space}
    (hx : ∀ t, 0 ≤ t → HasDerivAt x (RBDyn.flow mb (pdLaw mb kp kd goal) (calm mb) γ (x t)) t) {B : ℝ} (nq : ∀ t, 0 ≤ t → ‖(x t).2.1‖ ≤ B) :
    Tendsto (fun t => (x t).2.2) atTop (𝓝 0) ∧ Tendsto (fun t => accelAt mb (pdLaw mb kp kd goal) (calm mb) γ (0, (x t).2.1, 0)) atTop (𝓝 0) := by
  set F := accelAt mb (pdLaw mb kp kd goal) (calm mb) γ with hF
  have hA : ContDiff ℝ 1 fun z : (mb.Ix → ℝ) × (mb.Ix → ℝ) => F (0, z.1, z.2) :=
    (accelAt_diff M (pdLaw_smooth M) calm_smooth γ).comp (contDiff_const.prodMk contDiff_id)
  have hdq : ∀ t, 0 ≤ t → HasDerivAt (fun s => (x s).2.1) (x t).2.2 t := fun t ht =>
    ((ContinuousLinearMap.fst ℝ (mb.Ix → ℝ) (mb.Ix → ℝ)).comp
        (ContinuousLinearMap.snd ℝ ℝ ((mb.Ix → ℝ) × (mb.Ix → ℝ)))).hasFDerivAt.comp_hasDerivAt t (hx t ht)
  have hda : ∀ t, 0 ≤ t → HasDerivAt (fun s => (x s).2.2) (F (0, (x t).2.1, (x t).2.2)) t := fun t ht =>
    ((ContinuousLinearMap.snd ℝ (mb.Ix → ℝ) (mb.Ix → ℝ)).comp
        (ContinuousLinearMap.snd ℝ ℝ ((mb.Ix → ℝ) × (mb.Ix → ℝ)))).hasFDerivAt.comp_hasDerivAt t (hx t ht)
  obtain ⟨L, hL, hlow⟩ := bounded_on_ball (potential2_continuous M (γ := γ) (kp := kp) (goal := goal)) B
  have low : ∀ t, 0 ≤ t → -L ≤ mb.potential2 γ kp goal (x t).2.1 := fun t ht => by
    have := hlow _ (nq t ht)
    rw [Real.norm_eq_abs] at this
    linarith [neg_abs_le (mb.potential2 γ kp goal (x t).2.1)]
  have hV := fun t ht => weightEnergy_rate M (hx t ht)
  set E := mb.kin2 (mb.unflat (x 0).2.1) (mb.unflat (x 0).2.2) + mb.potential2 γ kp goal (x 0).2.1 with hE
  have hle : ∀ t, 0 ≤ t → mb.kin2 (mb.unflat (x t).2.1) (mb.unflat (x t).2.2) ≤ E + L := fun t ht => by
    have h1 := decreasing_le hV (fun s _ => by
      have : 0 ≤ ∑ y : mb.Ix, 2 * kd y.1 y.2 * (x s).2.2 y ^ 2 := Finset.sum_nonneg fun y _ =>
        mul_nonneg (mul_nonneg two_pos.le (hd _ _ y.1.2 y.2.2).le) (sq_nonneg _)
      linarith) ht
    have h2 := low t ht
    linarith
  obtain ⟨C, hC, hent⟩ := M.entry_bound
  have ba : ∀ t, 0 ≤ t → ‖(x t).2.2‖ ≤ C * √(E + L) := fun t ht => (pi_norm_le_iff_of_nonneg (by positivity)).2 fun y => by
    have := hent y (mb.unflat (x t).2.1) (mb.unflat (x t).2.2) (mb.unflat_sized M.wf _) (mb.unflat_sized M.wf _)
    rw [MultiBody.entry_unflat _ y.1.2 y.2.2] at this
    exact this.trans (mul_le_mul_of_nonneg_left (Real.sqrt_le_sqrt (hle t ht)) hC)
  exact comes_to_rest (A := fun z => F (0, z.1, z.2)) (q := fun s => (x s).2.1) (α := fun s => (x s).2.2)
    (V := fun s => mb.kin2 (mb.unflat (x s).2.1) (mb.unflat (x s).2.2) + mb.potential2 γ kp goal (x s).2.1 - -L)
    (D := fun y => 2 * kd y.1 y.2) (R := max B (C * √(E + L))) hA (fun t ht => by
      rw [Prod.norm_def]
      exact max_le_max (nq t ht) (ba t ht))
    hdq hda (fun y => mul_pos two_pos (hd _ _ y.1.2 y.2.2)) (fun t ht => by
      have := low t ht
      have := M.kin2_nonneg (mb.unflat (x t).2.1) (mb.unflat (x t).2.2)
      linarith) (fun t ht => (hV t ht).sub_const _)

/-- C95: with dampers in all joints every motion whose positions remain bounded comes to rest, and where positions accumulate the springs carry the weight: there
`inverseStatics` finds the torques of the springs. -/
theorem C95_bounded (M : Machine mb solve) (hd : ∀ i a, i < mb.bodies.length → a < mb.dofAt i → 0 < kd i a) {mbc : ℝ → MBC ℝ}
    (hm : Motion mb solve (pdLaw mb kp kd goal) (calm mb) γ (Set.Ici 0) mbc) {B : ℝ}
    (hB : ∀ t, 0 ≤ t → ∀ i a, i < mb.bodies.length → a < mb.dofAt i → |entry (mbc t).q i a| ≤ B) :
    (∀ i a, i < mb.bodies.length → a < mb.dofAt i → Tendsto (fun t => entry (mbc t).alpha i a) atTop (𝓝 0)) ∧
    ∀ (s : ℕ → ℝ) (m m' : MBC ℝ) (d d' : ID ℝ), Tendsto s atTop atTop → m.Sized mb → m.PosReady mb → m.gravity = γ → (∀ f ∈ m.force, f = 0) →
      d.f.length = mb.nrBodies →
      (∀ i a, i < mb.bodies.length → a < mb.dofAt i → Tendsto (fun n => entry (mbc (s n)).q i a) atTop (𝓝 (entry m.q i a))) →
      inverseStatics d mb m = .ok (d', m') →
      ∀ i a, i < mb.bodies.length → a < mb.dofAt i → entry m'.jointTorque i a = -kp i a * (entry m.q i a - entry goal i a) := by
  have nq : ∀ t, 0 ≤ t → ‖((mbc t).coords mb t).2.1‖ ≤ max B 0 := fun t ht => (pi_norm_le_iff_of_nonneg (le_max_right _ _)).2 fun y =>
    (hB t ht y.1 y.2 y.1.2 y.2.2).trans (le_max_left _ _)
  have key := flow_rests M hd (x := fun t => (mbc t).coords mb t) (fun t ht => hm.flow M ht) nq
  refine ⟨fun i a hi ha => tendsto_pi_nhds.1 key.1 ⟨⟨i, hi⟩, ⟨a, ha⟩⟩, fun s m m' d d' hs sz hv hg hf hl hq hi i a hi' ha => ?_⟩
  have hlim : Tendsto (fun n => ((mbc (s n)).coords mb (s n)).2.1) atTop (𝓝 (mb.flat m.q)) := tendsto_pi_nhds.2 fun y => hq y.1 y.2 y.1.2 y.2.2
  have hin : Continuous fun q : mb.Ix → ℝ => ((q, 0) : (mb.Ix → ℝ) × (mb.Ix → ℝ)) := by fun_prop
  have hc : Continuous fun q : mb.Ix → ℝ => accelAt mb (pdLaw mb kp kd goal) (calm mb) γ (0, q, 0) :=
    ((accelAt_diff M (pdLaw_smooth M) calm_smooth γ).continuous.comp ((Continuous.prodMk (continuous_const (y := (0 : ℝ))) hin)) :
      Continuous ((accelAt mb (pdLaw mb kp kd goal) (calm mb) γ) ∘ fun q : mb.Ix → ℝ => ((0 : ℝ), q, (0 : mb.Ix → ℝ))))
  have h0 : accelAt mb (pdLaw mb kp kd goal) (calm mb) γ (0, mb.flat m.q, 0) = 0 :=
    tendsto_nhds_unique ((hc.tendsto _).comp hlim) (key.2.comp hs)
  exact balance_of_rest M sz hv hg hf hl hi h0 hi' ha

/-! ### A pendulum -/

/-- A pendulum: it hangs at zero, where its potential energy is least, and up to one radian the weight acts on the joint everywhere else. -/
theorem Sample.pendulum : ∃ (mb : MultiBody ℝ) (solve : DMat ℝ → List ℝ → List ℝ), Machine mb solve ∧ mb.joints.map (·.type) = [.Rev] ∧
    mb.bodies.length = 1 ∧ mb.dofAt 0 = 1 ∧ (∀ a : ℝ, SizedDof mb [[a]]) ∧ StrictMin mb ⟨0, 0, 9⟩ (fun _ _ => 0) [] [[0]] 1 ∧
    OnlyBalance mb ⟨0, 0, 9⟩ (fun _ _ => 0) [] [[0]] 1 := by
  let J : List (Joint ℝ) := [Joint.mk' .Rev ⟨0, 1, 0⟩ true "a"]
  have hu : ∀ j ∈ J, j.BuiltUnit := by
    intro j hj
    simp only [J, List.mem_cons, List.not_mem_nil, or_false] at hj
    subst hj
    exact .mk _ _ _ _ (by simp [ValidAxis, IsUnit3])
  obtain ⟨mb, hmk, wf, hb, hj, hpr, -, hpa, hX⟩ := MultiBody.mk'_wf
    [⟨⟨2, ⟨0, 0, -1⟩, ⟨1, 0, 1, 0, 0, 1⟩⟩, "x"⟩] J [-1] [0] [-1] [1] rfl rfl rfl
    (by intro i hi
        have : i < 1 := hi
        obtain rfl : i = 0 := by omega
        rfl)
    (by intro i p hp
        obtain ⟨hi, -⟩ := List.getElem?_eq_some_iff.1 hp
        have : i < 1 := hi
        obtain rfl : i = 0 := by omega
        cases hp; decide)
    rfl (fun j hj => (hu j hj).built)
  have hr : mb.Rigid := by
    refine ⟨hj ▸ hu, ?_⟩
    rw [hX]; intro X h
    simp only [List.mem_cons, List.not_mem_nil, or_false] at h
    subst h; exact IsRigid.one
  have hI : ∀ b ∈ mb.bodies, ∀ v : MotionVec ℝ, v ≠ 0 → 0 < v.dot (b.inertia.mulMotion v) := by
    rw [hb]
    intro b hb
    have key : ∀ w : Vec3 ℝ, w ≠ 0 → 0 < w.x ^ 2 + w.y ^ 2 + w.z ^ 2 := by
      intro w hw
      by_contra hcon
      push Not at hcon
      apply hw
      ext
      · simp only [Vec3.zero_x]; nlinarith [sq_nonneg w.x, sq_nonneg w.y, sq_nonneg w.z]
      · simp only [Vec3.zero_y]; nlinarith [sq_nonneg w.x, sq_nonneg w.y, sq_nonneg w.z]
      · simp only [Vec3.zero_z]; nlinarith [sq_nonneg w.x, sq_nonneg w.y, sq_nonneg w.z]
    simp only [List.mem_cons, List.not_mem_nil, or_false] at hb
    subst hb
    refine RBInertia.pos_of (by norm_num) fun w hw => ?_
    have := key w hw
    simp [Vec3.dot, Vec3.cross, Sym3.toMat]
    nlinarith [sq_nonneg w.x, sq_nonneg w.y, sq_nonneg w.z]
  have hS : ∀ j ∈ mb.joints, ∀ c ∈ j.S, c ≠ 0 := by
    rw [hj]
    intro j hj c hc h0
    simp only [J, List.mem_cons, List.not_mem_nil, or_false] at hj
    subst hj
    simp only [Joint.mk', Joint.mkS, List.mem_cons, List.not_mem_nil, or_false] at hc
    rw [h0] at hc
    simpa using (congrArg (fun v => v.ang.y) hc)
  obtain ⟨solve, hs⟩ := SolvesPositive.exists mb.nrDof
  have hsim : SimpleJoints mb := by
    intro j h
    rw [hj] at h
    simp only [J, List.mem_cons, List.not_mem_nil, or_false] at h
    subst h
    exact .inl rfl
  have M : Machine mb solve := ⟨wf, hr, hI, hS, hs, hsim⟩
  have hl : mb.bodies.length = 1 := by rw [hb]; rfl
  have hdof : mb.dofAt 0 = 1 := by
    unfold MultiBody.dofAt
    rw [hj]
    rfl
  have hsz : ∀ a : ℝ, SizedDof mb [[a]] := fun a => by
    unfold SizedDof
    rw [hj]
    rfl
  have hshape : ∀ q, SizedDof mb q → ∃ a, q = [[a]] := fun q h => by
    unfold SizedDof at h
    rw [hj] at h
    match q, h with
    | [[a]], _ => exact ⟨a, rfl⟩
    | [], h => simp [J] at h
    | [] :: _, h => simp [J, Joint.mk', Joint.nDof] at h
    | (_ :: _ :: _) :: _, h => simp [J, Joint.mk', Joint.nDof] at h
    | _ :: _ :: _, h => simp [J] at h
  have hpar : mb.par 0 = none := by
    unfold MultiBody.par
    rw [hpr]
    rfl
  have hpos : ∀ a : ℝ, mb.posAt [[a]] 0 = ⟨⟨Real.cos a, 0, -Real.sin a, 0, 1, 0, Real.sin a, 0, Real.cos a⟩, 0⟩ := fun a => by
    rw [wf.posAt_none _ hpar]
    have h1 : mb.ptsAt [[a]] 0 = (PTransform.ofRot (angleAxis (-a) ⟨0, 1, 0⟩)) * 1 := by
      unfold MultiBody.ptsAt MultiBody.poseAt MultiBody.XtAt
      rw [hX, hj]
      simp [J, Joint.mk', Joint.mkS, Joint.pose]
      rfl
    rw [h1, mul_one]
    show (⟨_, _⟩ : PTransform ℝ) = _
    congr 1
    ext <;> simp [angleAxis, Scalar.sin, Scalar.cos]
  have hin : mb.inertiaAt 0 = ⟨2, ⟨0, 0, -1⟩, ⟨1, 0, 1, 0, 0, 1⟩⟩ := by
    unfold MultiBody.inertiaAt
    rw [hb]
    rfl
  have hpot : ∀ (m : MBC ℝ) (a : ℝ), m.PosReady mb → m.gravity = ⟨0, 0, 9⟩ → m.q = [[a]] → m.potential mb (fun _ _ => 0) [] = -9 * Real.cos a := by
    intro m a hv hg hq
    unfold MBC.potential MBC.springEnergy
    have e : mb.nrBodies = 1 := hl
    rw [e, Finset.sum_range_one, hv.bodyPosW, range_map_getElem? (by omega), Option.getD_some, hq, hpos, hin, hg]
    simp [massPos, Vec3.dot, MultiBody.dofSum, Mat3.mulVec, Mat3.tr]
  refine ⟨mb, solve, M, by rw [hj]; rfl, hl, hdof, hsz, ?_, ?_⟩
  · intro m m₀ sz hv hg sz₀ hv₀ hg₀ hq₀ hnear hne
    obtain ⟨a, ha⟩ := hshape m.q (M.sizedQ.1 sz.q)
    rw [hpot m a hv hg ha, hpot m₀ 0 hv₀ hg₀ hq₀, Real.cos_zero]
    have h1 := hnear 0 0 (by omega) (by omega)
    rw [ha] at h1 hne
    have h2 : |a| ≤ 1 := by simpa [entry] using h1
    have h3 : a ≠ 0 := fun e => hne (by rw [e])
    have h4 : Real.cos a < 1 := by
      rw [← Real.cos_abs, ← Real.cos_zero]
      exact Real.cos_lt_cos_of_nonneg_of_le_pi le_rfl (h2.trans (by linarith [Real.two_le_pi])) (abs_pos.2 h3)
    linarith
  · intro m m' d d' sz hv hg hf hd hs hnear hbal
    obtain ⟨a, ha⟩ := hshape m.q (M.sizedQ.1 sz.q)
    have h1 := hnear 0 0 (by omega) (by omega)
    rw [ha] at h1
    have h2 : |a| ≤ 1 := by simpa [entry] using h1
    rw [is_eq M.wf M.rigid sz (M.valid (M.sizedQ.1 sz.q)) hv hd rfl] at hs
    obtain ⟨-, rfl⟩ := Prod.mk.inj (Except.ok.inj hs)
    have h3 := hbal 0 0 (by omega) (by omega)
    dsimp only at h3
    rw [entry_torque M.wf (by omega) (by omega), mb.dot_wrenchAt, hl, Finset.sum_range_one, neg_zero, zero_mul, hg, ha, hpos, hin] at h3
    have hfe : m.forceAt 0 = 0 := by
      unfold MBC.forceAt
      rcases e : m.force[0]? with _ | f
      · rfl
      · exact hf f (List.mem_of_getElem? e)
    rw [hfe] at h3
    have hS0 : mb.SAt 0 = [⟨⟨0, 1, 0⟩, 0⟩] := by
      unfold MultiBody.SAt
      rw [hj]
      simp [J, Joint.mk', Joint.mkS]
    have hcol : mb.colAt [[a]] 0 0 0 = ⟨⟨0, 1, 0⟩, 0⟩ := by
      unfold MultiBody.colAt
      rw [if_pos (by rw [pathUp_none hpar]; simp), MultiBody.relAt_self hr (M.valid (hsz a)), hS0]
      simp
    rw [hcol] at h3
    have h4 : Real.sin a = 0 := by
      simp [MotionVec.dot, Vec3.dot, RBInertia.mulMotion, PTransform.mulMotion, PTransform.dualMul, Mat3.mulVec, Vec3.cross, Sym3.toMat] at h3
      linarith
    have hpi := Real.two_le_pi
    have := (Real.sin_eq_zero_iff_of_lt_of_lt (by linarith [neg_abs_le a]) (by linarith [le_abs_self a])).1 h4
    rw [ha, this]

/-- A damped pendulum that starts near the bottom comes to rest at the bottom, and an undamped one stays near. -/
example : ∃ (mb : MultiBody ℝ) (solve : DMat ℝ → List ℝ → List ℝ), mb.joints.map (·.type) = [.Rev] ∧
    (∃ δ, 0 < δ ∧ ∀ a b, |a| < δ → |b| < δ → ∃ mbc : ℝ → MBC ℝ, (mbc 0).q = [[a]] ∧ (mbc 0).alpha = [[b]] ∧
      Motion mb solve (pdLaw mb (fun _ _ => 0) (fun _ _ => 1) []) (calm mb) ⟨0, 0, 9⟩ Set.univ mbc ∧ Tendsto (fun t => entry (mbc t).q 0 0) atTop (𝓝 0)) ∧
    ∃ δ, 0 < δ ∧ ∀ a b, |a| < δ → |b| < δ → ∃ mbc : ℝ → MBC ℝ, (mbc 0).q = [[a]] ∧ (mbc 0).alpha = [[b]] ∧
      Motion mb solve (pdLaw mb (fun _ _ => 0) (fun _ _ => 0) []) (calm mb) ⟨0, 0, 9⟩ Set.univ mbc ∧ ∀ t, 0 ≤ t → |entry (mbc t).q 0 0| < 1 / 1000 := by
  obtain ⟨mb, solve, M, ht, hl, hdof, hsz, hmin, honly⟩ := Sample.pendulum
  have hi : 0 < mb.bodies.length := by omega
  have ha : 0 < mb.dofAt 0 := by omega
  have start : ∀ (c : MBC ℝ) (a b δ : ℝ), c.q = [[a]] → c.alpha = [[b]] → |a| < δ → |b| < δ → ∀ i j, i < mb.bodies.length → j < mb.dofAt i →
      |entry c.q i j - entry [[0]] i j| < δ ∧ |entry c.alpha i j| < δ := by
    intro c a b δ h1 h2 h3 h4 i j hi' hj'
    obtain rfl : i = 0 := by omega
    obtain rfl : j = 0 := by omega
    rw [h1, h2]
    simpa [entry] using ⟨h3, h4⟩
  refine ⟨mb, solve, ht, ?_, ?_⟩
  · obtain ⟨δ, hδ, key⟩ := C95_attracts M (kd := fun _ _ => 1) (fun _ _ _ _ => one_pos) (hsz 0) one_pos hmin honly
    refine ⟨δ, hδ, fun a b h1 h2 => ?_⟩
    obtain ⟨c, e1, e2, h⟩ := C90_forever M (pdLaw_smooth M) calm_smooth (pdLaw_linear M (kp := fun _ _ => 0) (kd := fun _ _ => 1) (goal := [])) (calm_linear M)
      ⟨0, 0, 9⟩ (hsz a) (hsz b) 0
    exact ⟨c, e1, e2, h, (key c (h.mono (Set.subset_univ _)) (start _ a b δ e1 e2 h1 h2) 0 0 hi ha).1⟩
  · obtain ⟨δ, hδ, key⟩ := C95_stable M (kd := fun _ _ => 0) (fun _ _ _ _ => le_rfl) (hsz 0) one_pos hmin (ε := 1 / 1000) (by norm_num)
    refine ⟨δ, hδ, fun a b h1 h2 => ?_⟩
    obtain ⟨c, e1, e2, h⟩ := C90_forever M (pdLaw_smooth M) calm_smooth (pdLaw_linear M (kp := fun _ _ => 0) (kd := fun _ _ => 0) (goal := [])) (calm_linear M)
      ⟨0, 0, 9⟩ (hsz a) (hsz b) 0
    refine ⟨c, e1, e2, h, fun t ht => ?_⟩
    have := (key c (h.mono (Set.subset_univ _)) (start _ a b δ e1 e2 h1 h2) t ht 0 0 hi ha).1
    simpa [entry] using this

/-- A damped pendulum has motions with bounded positions. -/
example : ∃ (mb : MultiBody ℝ) (solve : DMat ℝ → List ℝ → List ℝ) (mbc : ℝ → MBC ℝ), mb.joints.map (·.type) = [.Rev] ∧ entry (mbc 0).q 0 0 ≠ 0 ∧
    Motion mb solve (pdLaw mb (fun _ _ => 0) (fun _ _ => 1) []) (calm mb) ⟨0, 0, 9⟩ (Set.Ici 0) mbc ∧
    (∀ t, 0 ≤ t → ∀ i a, i < mb.bodies.length → a < mb.dofAt i → |entry (mbc t).q i a| ≤ 1) ∧ Tendsto (fun t => entry (mbc t).alpha 0 0) atTop (𝓝 0) := by
  obtain ⟨mb, solve, M, ht, hl, hdof, hsz, hmin, -⟩ := Sample.pendulum
  have hi : 0 < mb.bodies.length := by omega
  have ha : 0 < mb.dofAt 0 := by omega
  obtain ⟨δ, hδ, key⟩ := C95_stable M (kd := fun _ _ => 1) (fun _ _ _ _ => zero_le_one) (hsz 0) one_pos hmin one_pos
  obtain ⟨c, e1, e2, h⟩ := C90_forever M (pdLaw_smooth M) calm_smooth (pdLaw_linear M (kp := fun _ _ => 0) (kd := fun _ _ => 1) (goal := [])) (calm_linear M)
    ⟨0, 0, 9⟩ (hsz (δ / 2)) (hsz 0) 0
  have hB : ∀ t, 0 ≤ t → ∀ i a, i < mb.bodies.length → a < mb.dofAt i → |entry (c t).q i a| ≤ 1 := fun t ht i a hi' ha' => by
    have := (key c (h.mono (Set.subset_univ _)) (fun i j hi' hj' => by
      obtain rfl : i = 0 := by omega
      obtain rfl : j = 0 := by omega
      rw [e1, e2]
      have h3 : |δ / 2| < δ := by rw [abs_of_pos (half_pos hδ)]; exact half_lt_self hδ
      simpa [entry] using ⟨h3, hδ⟩) t ht i a hi' ha').1
    obtain rfl : i = 0 := by omega
    obtain rfl : a = 0 := by omega
    have e : entry [[(0 : ℝ)]] 0 0 = 0 := rfl
    rw [e, sub_zero] at this
    exact this.le
  refine ⟨mb, solve, c, ht, ?_, h.mono (Set.subset_univ _), hB, (C95_bounded M (fun _ _ _ _ => one_pos) (h.mono (Set.subset_univ _)) hB).1 0 0 hi ha⟩
  rw [e1]
  simpa [entry] using hδ.ne'

end RBDyn
