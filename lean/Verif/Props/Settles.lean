import Verif.Lemmas.Settle
import Verif.Props.Forever

/-! Property C93: springs and dampers around a goal, with the weight carried by the torques of `inverseStatics`, bring the robot to the goal and to rest. -/

namespace RBDyn
open scoped Mat3 Topology
open Filter

/-- Proportional and derivative control with compensation of weight and forces: the torques are those that `inverseStatics` computes at the momentary positions, plus
springs `kp` towards the goal and dampers `kd`. -/
def ServoLaw (mb : MultiBody ℝ) (law : ℝ → List (List ℝ) → List (List ℝ) → List (List ℝ)) (env : ℝ → List (List ℝ) → List (List ℝ) → List (ForceVec ℝ))
    (γ : Vec3 ℝ) (kp kd : Nat → Nat → ℝ) (goal : List (List ℝ)) : Prop :=
  ∀ (t : ℝ) (m m' : MBC ℝ) (d d' : ID ℝ), m.Sized mb → m.PosReady mb → m.gravity = γ → m.force = env t m.q m.alpha → d.f.length = mb.nrBodies →
    inverseStatics d mb m = .ok (d', m') → ∀ i a, i < mb.bodies.length → a < mb.dofAt i →
      entry (law t m.q m.alpha) i a = entry m'.jointTorque i a - kp i a * (entry m.q i a - entry goal i a) - kd i a * entry m.alpha i a

variable {mb : MultiBody ℝ} {solve : DMat ℝ → List ℝ → List ℝ} {law : ℝ → List (List ℝ) → List (List ℝ) → List (List ℝ)}
  {env : ℝ → List (List ℝ) → List (List ℝ) → List (ForceVec ℝ)} {γ : Vec3 ℝ} {kp kd : Nat → Nat → ℝ} {goal : List (List ℝ)}

/-! ### The robot without weight -/

/-- Springs and dampers alone. -/
noncomputable def pdLaw (mb : MultiBody ℝ) (kp kd : Nat → Nat → ℝ) (goal : List (List ℝ)) (_ : ℝ) (q α : List (List ℝ)) : List (List ℝ) :=
  mb.ofEntries fun i a => -kp i a * (entry q i a - entry goal i a) - kd i a * entry α i a

/-- No forces. -/
noncomputable def calm (mb : MultiBody ℝ) (_ : ℝ) (_ _ : List (List ℝ)) : List (ForceVec ℝ) := List.replicate mb.bodies.length 0

theorem calm_get (t : ℝ) (q α : List (List ℝ)) (k : Nat) : ((calm mb t q α)[k]?).getD 0 = 0 := by
  unfold calm
  rw [List.getElem?_replicate]
  split <;> rfl

theorem calm_smooth : SmoothForces mb (calm mb) :=
  ⟨fun _ _ _ => by simp [calm], fun k _ => by simp only [calm_get]; exact .const _⟩

theorem calm_linear (M : Machine mb solve) : LinearForces mb (calm mb) :=
  C90_bounded_forces M fun _ => ⟨0, fun t q α _ _ _ k _ => by rw [calm_get]; exact ⟨Vec3.small_zero le_rfl, Vec3.small_zero le_rfl⟩⟩

theorem pdLaw_smooth (M : Machine mb solve) : SmoothLaw mb (pdLaw mb kp kd goal) := by
  refine ⟨fun w => mb.ofEntries_sized M.wf _, fun i a hi ha => ?_⟩
  unfold pdLaw
  simp only [mb.entry_ofEntries _ hi ha, MultiBody.entry_unflat _ hi ha]
  fun_prop

theorem pdLaw_linear (M : Machine mb solve) : LinearLaw mb (pdLaw mb kp kd goal) := by
  have hs := fun (t : ℝ) (q α : List (List ℝ)) => mb.ofEntries_sized M.wf fun i a => -kp i a * (entry q i a - entry goal i a) - kd i a * entry α i a
  refine fun T => ⟨∑ y : mb.Ix, (|kp y.1 y.2| * (1 + |entry goal y.1 y.2|) + |kd y.1 y.2|), fun t q α b _ _ _ hb i a => ?_⟩
  have hb0 : 0 ≤ b := (abs_nonneg _).trans (hb 0 0).1
  have hnn : ∀ y : mb.Ix, 0 ≤ |kp y.1 y.2| * (1 + |entry goal y.1 y.2|) + |kd y.1 y.2| := fun y => by positivity
  by_cases hc : i < mb.bodies.length ∧ a < mb.dofAt i
  · unfold pdLaw
    rw [mb.entry_ofEntries _ hc.1 hc.2]
    refine le_trans ?_ (mul_le_mul_of_nonneg_right (Finset.single_le_sum (fun y _ => hnn y) (Finset.mem_univ (⟨⟨i, hc.1⟩, ⟨a, hc.2⟩⟩ : mb.Ix))) (by linarith))
    dsimp only
    have h1 := (hb i a).1
    have h2 := (hb i a).2
    have h3 : |entry q i a - entry goal i a| ≤ b + |entry goal i a| := (abs_sub _ _).trans (by linarith)
    have h4 := abs_sub (-kp i a * (entry q i a - entry goal i a)) (kd i a * entry α i a)
    rw [abs_mul, abs_mul, abs_neg] at h4
    have h5 := mul_le_mul_of_nonneg_left h3 (abs_nonneg (kp i a))
    have h6 := mul_le_mul_of_nonneg_left h2 (abs_nonneg (kd i a))
    have h7 : 0 ≤ |kp i a| * (1 + b * |entry goal i a|) := by positivity
    have h8 := abs_nonneg (kd i a)
    nlinarith
  · unfold pdLaw
    rw [entry_beyond M.wf (hs t q α) hc, abs_zero]
    exact mul_nonneg (Finset.sum_nonneg fun y _ => hnn y) (by linarith)

/-- The torques of weight and forces are added to those of the velocities. -/
theorem bias_split (q α : List (List ℝ)) (a0 : MotionVec ℝ) (fe : Nat → ForceVec ℝ) (i a : Nat) :
    mb.biasAt q α a0 fe i a = mb.biasAt q α 0 (fun _ => 0) i a + ((mb.SAt i).getD a 0).dot (mb.wrenchAt q (fun k =>
      (mb.inertiaAt k).mulMotion ((mb.posAt q k).mulMotion a0) - (mb.posAt q k).dualMul (fe k)) i) := by
  unfold MultiBody.biasAt
  rw [mb.dot_wrenchAt, mb.dot_wrenchAt, mb.dot_wrenchAt, ← Finset.sum_add_distrib]
  refine Finset.sum_congr rfl fun k _ => ?_
  have e : (mb.posAt q k).dualMul (0 : ForceVec ℝ) = 0 := by simp [PTransform.dualMul]; rfl
  rw [MultiBody.netForceAt, MultiBody.netForceAt, mb.accAt_base q α [] a0, RBInertia.mulMotion_add, e, MotionVec.dot_sub, MotionVec.dot_sub,
    MotionVec.dot_sub, MotionVec.dot_add, MotionVec.dot_add, MotionVec.dot_add]
  have : (mb.colAt q k i a).dot (0 : ForceVec ℝ) = 0 := by simp [MotionVec.dot]
  rw [this]
  ring

/-- Under a servo law the robot moves as it would without weight and forces. -/
theorem ServoLaw.acc (M : Machine mb solve) (h : ServoLaw mb law env γ kp kd goal) (he : ∀ t q α, (env t q α).length = mb.bodies.length) (w : mb.Space) :
    accelAt mb law env γ w = accelAt mb (pdLaw mb kp kd goal) (calm mb) 0 w := by
  have hsz := fun v : mb.Ix → ℝ => mb.unflat_sized M.wf v
  obtain ⟨m, sz, hv, e1, e2, -, e3, e4, -⟩ := config_exists M (hsz w.2.1) (hsz w.2.2) (hsz 0) (hsz 0)
    (he w.1 (mb.unflat w.2.1) (mb.unflat w.2.2)) γ
  have hl : (⟨List.replicate mb.bodies.length 0⟩ : ID ℝ).f.length = mb.bodies.length := by simp
  have hs := is_eq M.wf M.rigid sz (M.valid (M.sizedQ.1 sz.q)) hv.toPosReady hl rfl
  have key := h w.1 m _ _ _ sz hv.toPosReady e4 (by rw [e3, e1, e2]) hl hs
  unfold accelAt MultiBody.accOf
  congr 1
  funext y
  have := key y.1 y.2 y.1.2 y.2.2
  dsimp only at this
  rw [entry_torque M.wf y.1.2 y.2.2, e1, e2, e4] at this
  rw [bias_split, this]
  have hfe : m.forceAt = fun k => ((env w.1 (mb.unflat w.2.1) (mb.unflat w.2.2))[k]?).getD 0 := by
    unfold MBC.forceAt
    rw [e3]
  rw [hfe]
  simp only [calm_get]
  unfold pdLaw
  rw [mb.entry_ofEntries _ y.1.2 y.2.2]
  show _ = _ - mb.biasAt (mb.unflat w.2.1) (mb.unflat w.2.2) 0 (fun _ => 0) y.1 y.2
  ring

theorem ServoLaw.flow (M : Machine mb solve) (h : ServoLaw mb law env γ kp kd goal) (he : ∀ t q α, (env t q α).length = mb.bodies.length) (w : mb.Space) :
    RBDyn.flow mb law env γ w = RBDyn.flow mb (pdLaw mb kp kd goal) (calm mb) 0 w := by
  unfold RBDyn.flow
  rw [h.acc M he]

/-! ### Energy -/

/-- Twice the kinetic energy and twice the energy of the springs. -/
noncomputable def MultiBody.servoEnergy (mb : MultiBody ℝ) (kp : Nat → Nat → ℝ) (goal : List (List ℝ)) (w : mb.Space) : ℝ :=
  mb.kin2 (mb.unflat w.2.1) (mb.unflat w.2.2) + ∑ y : mb.Ix, kp y.1 y.2 * (w.2.1 y - entry goal y.1 y.2) ^ 2

theorem servoEnergy_rate (M : Machine mb solve) {x : ℝ → mb.Space} {t : ℝ}
    (hx : HasDerivAt x (RBDyn.flow mb (pdLaw mb kp kd goal) (calm mb) 0 (x t)) t) :
    HasDerivAt (fun s => mb.servoEnergy kp goal (x s)) (-∑ y : mb.Ix, 2 * kd y.1 y.2 * (x t).2.2 y ^ 2) t := by
  have hk := M.kin2_rate rfl hx
  have hp : HasDerivAt (fun s => ∑ y : mb.Ix, kp y.1 y.2 * ((x s).2.1 y - entry goal y.1 y.2) ^ 2)
      (∑ y : mb.Ix, kp y.1 y.2 * (2 * ((x t).2.1 y - entry goal y.1 y.2) * (x t).2.2 y)) t := by
    refine HasDerivAt.fun_sum fun y _ => HasDerivAt.const_mul _ ?_
    have h2 : HasDerivAt (fun s => (x s).2.1 y) ((x t).2.2 y) t :=
      hasDerivAt_pi.1 (((ContinuousLinearMap.fst ℝ (mb.Ix → ℝ) (mb.Ix → ℝ)).comp
        (ContinuousLinearMap.snd ℝ ℝ ((mb.Ix → ℝ) × (mb.Ix → ℝ)))).hasFDerivAt.comp_hasDerivAt t hx) y
    refine ((h2.sub_const (entry goal y.1 y.2)).pow 2).congr_deriv ?_
    simp
  refine (hk.add hp).congr_deriv ?_
  have z1 : ∑ k ∈ Finset.range mb.bodies.length, (mb.velAt (mb.unflat (x t).2.1) (mb.unflat (x t).2.2) k).dot ((mb.posAt (mb.unflat (x t).2.1) k).dualMul
      (((calm mb (x t).1 (mb.unflat (x t).2.1) (mb.unflat (x t).2.2))[k]?).getD 0)) = 0 :=
    Finset.sum_eq_zero fun k _ => by rw [calm_get]; simp [PTransform.dualMul, MotionVec.dot]
  have z2 : ∑ k ∈ Finset.range mb.bodies.length, (mb.velAt (mb.unflat (x t).2.1) (mb.unflat (x t).2.2) k).dot
      ((mb.inertiaAt k).mulMotion ((mb.posAt (mb.unflat (x t).2.1) k).mulMotion ⟨0, 0⟩)) = 0 :=
    Finset.sum_eq_zero fun k _ => by
      rw [show (⟨0, 0⟩ : MotionVec ℝ) = 0 from rfl, PTransform.mulMotion_zero, RBInertia.mulMotion_zero]
      simp [MotionVec.dot]
  rw [z1, z2, add_zero, sub_zero, Finset.mul_sum, ← Finset.sum_add_distrib, ← Finset.sum_neg_distrib]
  refine Finset.sum_congr rfl fun y _ => ?_
  unfold pdLaw
  rw [mb.entry_ofEntries _ y.1.2 y.2.2, MultiBody.entry_unflat _ y.1.2 y.2.2, MultiBody.entry_unflat _ y.1.2 y.2.2]
  ring

/-! ### Rest -/

theorem unflat_rest (M : Machine mb solve) : ∀ l ∈ mb.unflat (0 : mb.Ix → ℝ), ∀ c ∈ l, c = 0 := by
  intro l hl c hc
  obtain ⟨i, hi, rfl⟩ := List.getElem_of_mem hl
  obtain ⟨a, ha, rfl⟩ := List.getElem_of_mem hc
  have hlen := (mb.unflat_sized M.wf (0 : mb.Ix → ℝ))
  have e : (mb.unflat (0 : mb.Ix → ℝ))[i][a] = entry (mb.unflat (0 : mb.Ix → ℝ)) i a := by
    simp [entry, List.getD_eq_getElem?_getD, hi, ha]
  rw [e]
  by_cases hc : i < mb.bodies.length ∧ a < mb.dofAt i
  · rw [MultiBody.entry_unflat _ hc.1 hc.2]; rfl
  · exact entry_beyond M.wf hlen hc

/-- Where the robot without weight is not accelerated from rest, the springs are relaxed. -/
theorem rest_force (M : Machine mb solve) (q : mb.Ix → ℝ) (t : ℝ) (y : mb.Ix) :
    -kp y.1 y.2 * (q y - entry goal y.1 y.2) = ∑ z : mb.Ix, mb.massAt (mb.unflat q) y.1 y.2 z.1 z.2 *
      accelAt mb (pdLaw mb kp kd goal) (calm mb) 0 (t, q, 0) z := by
  have hrest := unflat_rest M
  have h := (accOf_iff M.wf M.rigid (M.valid (mb.unflat_sized M.wf q)) M.inertia M.subspace (mb.unflat 0)
    (pdLaw mb kp kd goal t (mb.unflat q) (mb.unflat 0)) ⟨0, 0⟩ (fun k => ((calm mb t (mb.unflat q) (mb.unflat 0))[k]?).getD 0)
    (mb.unflat (accelAt mb (pdLaw mb kp kd goal) (calm mb) 0 (t, q, 0)))).2 (MultiBody.flat_unflat _) y.1 y.2 y.1.2 y.2.2
  rw [M.wf.torque_split, MultiBody.dofSum_ix] at h
  have hz : ((mb.SAt y.1).getD y.2 0).dot (mb.wrenchAt (mb.unflat q) (mb.netForceAt (mb.unflat q) (mb.unflat 0) [] ⟨0, 0⟩
      (fun k => ((calm mb t (mb.unflat q) (mb.unflat 0))[k]?).getD 0)) y.1) = 0 := by
    rw [mb.dot_wrenchAt]
    refine Finset.sum_eq_zero fun k _ => ?_
    rw [MultiBody.netForceAt, mb.accAt_rest _ hrest (by simp), mb.velAt_rest _ hrest, calm_get, show (⟨0, 0⟩ : MotionVec ℝ) = 0 from rfl,
      PTransform.mulMotion_zero, RBInertia.mulMotion_zero]
    simp [PTransform.dualMul, MotionVec.dot]
  rw [hz, add_zero] at h
  unfold pdLaw at h
  rw [mb.entry_ofEntries _ y.1.2 y.2.2, MultiBody.entry_unflat _ y.1.2 y.2.2, MultiBody.entry_unflat _ y.1.2 y.2.2] at h
  have e : (0 : mb.Ix → ℝ) ⟨⟨y.1, y.1.2⟩, ⟨y.2, y.2.2⟩⟩ = 0 := rfl
  rw [e, mul_zero, sub_zero] at h
  refine h.trans (Finset.sum_congr rfl fun z _ => ?_)
  rw [MultiBody.entry_unflat _ z.1.2 z.2.2]
  rfl

/-- Solutions of the differential equation come to rest at the goal. -/
theorem flow_settles (M : Machine mb solve) (hp : ∀ i a, i < mb.bodies.length → a < mb.dofAt i → 0 < kp i a)
    (hd : ∀ i a, i < mb.bodies.length → a < mb.dofAt i → 0 < kd i a) {x : ℝ → mb.Space}
    (hx : ∀ t, 0 ≤ t → HasDerivAt x (RBDyn.flow mb (pdLaw mb kp kd goal) (calm mb) 0 (x t)) t) :
    Tendsto (fun t => (x t).2.1) atTop (𝓝 (mb.flat goal)) ∧ Tendsto (fun t => (x t).2.2) atTop (𝓝 0) := by
  set F := accelAt mb (pdLaw mb kp kd goal) (calm mb) 0 with hF
  have hA : ContDiff ℝ 1 fun z : (mb.Ix → ℝ) × (mb.Ix → ℝ) => F (0, z.1, z.2) :=
    (accelAt_diff M (pdLaw_smooth M) calm_smooth 0).comp (contDiff_const.prodMk contDiff_id)
  have hq : ∀ t, 0 ≤ t → HasDerivAt (fun s => (x s).2.1) (x t).2.2 t := fun t ht =>
    ((ContinuousLinearMap.fst ℝ (mb.Ix → ℝ) (mb.Ix → ℝ)).comp
        (ContinuousLinearMap.snd ℝ ℝ ((mb.Ix → ℝ) × (mb.Ix → ℝ)))).hasFDerivAt.comp_hasDerivAt t (hx t ht)
  have ha : ∀ t, 0 ≤ t → HasDerivAt (fun s => (x s).2.2) (F (0, (x t).2.1, (x t).2.2)) t := fun t ht =>
    ((ContinuousLinearMap.snd ℝ (mb.Ix → ℝ) (mb.Ix → ℝ)).comp
        (ContinuousLinearMap.snd ℝ ℝ ((mb.Ix → ℝ) × (mb.Ix → ℝ)))).hasFDerivAt.comp_hasDerivAt t (hx t ht)
  have hV := fun t ht => servoEnergy_rate M (hx t ht)
  have pos : ∀ w : mb.Space, ∀ y : mb.Ix, 0 ≤ kp y.1 y.2 * (w.2.1 y - entry goal y.1 y.2) ^ 2 := fun w y =>
    mul_nonneg (hp _ _ y.1.2 y.2.2).le (sq_nonneg _)
  have hV0 : ∀ w : mb.Space, 0 ≤ mb.servoEnergy kp goal w := fun w => add_nonneg (M.kin2_nonneg _ _) (Finset.sum_nonneg fun y _ => pos w y)
  have hle : ∀ t, 0 ≤ t → mb.servoEnergy kp goal (x t) ≤ mb.servoEnergy kp goal (x 0) := fun t ht =>
    decreasing_le hV (fun s _ => by
      have : 0 ≤ ∑ y : mb.Ix, 2 * kd y.1 y.2 * (x s).2.2 y ^ 2 := Finset.sum_nonneg fun y _ =>
        mul_nonneg (mul_nonneg two_pos.le (hd _ _ y.1.2 y.2.2).le) (sq_nonneg _)
      linarith) ht
  set E := mb.servoEnergy kp goal (x 0)
  -- everything stays bounded
  obtain ⟨C, hC, hent⟩ := M.entry_bound
  have bq : ∀ t, 0 ≤ t → ∀ y : mb.Ix, |(x t).2.1 y| ≤ ∑ y : mb.Ix, (|entry goal y.1 y.2| + √(E / kp y.1 y.2)) := fun t ht y => by
    have h1 : kp y.1 y.2 * ((x t).2.1 y - entry goal y.1 y.2) ^ 2 ≤ E :=
      (Finset.single_le_sum (fun y _ => pos (x t) y) (Finset.mem_univ y)).trans
        ((le_add_of_nonneg_left (M.kin2_nonneg _ _)).trans (hle t ht))
    have h2 : |(x t).2.1 y - entry goal y.1 y.2| ≤ √(E / kp y.1 y.2) := by
      rw [← Real.sqrt_sq_eq_abs]
      refine Real.sqrt_le_sqrt ?_
      rw [le_div_iff₀ (hp _ _ y.1.2 y.2.2), mul_comm]
      exact h1
    have h3 : |(x t).2.1 y| ≤ |entry goal y.1 y.2| + √(E / kp y.1 y.2) := by
      have := abs_add_le ((x t).2.1 y - entry goal y.1 y.2) (entry goal y.1 y.2)
      rw [sub_add_cancel] at this
      linarith
    exact h3.trans (Finset.single_le_sum (f := fun y : mb.Ix => |entry goal y.1 y.2| + √(E / kp y.1 y.2)) (fun y _ => by positivity) (Finset.mem_univ y))
  have ba : ∀ t, 0 ≤ t → ∀ y : mb.Ix, |(x t).2.2 y| ≤ C * √E := fun t ht y => by
    have := hent y (mb.unflat (x t).2.1) (mb.unflat (x t).2.2) (mb.unflat_sized M.wf _) (mb.unflat_sized M.wf _)
    rw [MultiBody.entry_unflat _ y.1.2 y.2.2] at this
    refine this.trans (mul_le_mul_of_nonneg_left (Real.sqrt_le_sqrt ?_) hC)
    exact (le_add_of_nonneg_right (Finset.sum_nonneg fun y _ => pos (x t) y)).trans (hle t ht)
  set Q := ∑ y : mb.Ix, (|entry goal y.1 y.2| + √(E / kp y.1 y.2)) with hQ
  have hQ0 : 0 ≤ Q := Finset.sum_nonneg fun y _ => by positivity
  have hCE : 0 ≤ C * √E := by positivity
  have nq : ∀ t, 0 ≤ t → ‖(x t).2.1‖ ≤ Q := fun t ht => (pi_norm_le_iff_of_nonneg hQ0).2 (bq t ht)
  have hR : ∀ t, 0 ≤ t → ‖((x t).2.1, (x t).2.2)‖ ≤ max Q (C * √E) := fun t ht => by
    rw [Prod.norm_def]
    exact max_le_max (nq t ht) ((pi_norm_le_iff_of_nonneg hCE).2 (ba t ht))
  obtain ⟨h1, h2⟩ := comes_to_rest (A := fun z => F (0, z.1, z.2)) (q := fun s => (x s).2.1) (α := fun s => (x s).2.2) (V := fun s => mb.servoEnergy kp goal (x s))
    (D := fun y => 2 * kd y.1 y.2) hA hR hq ha (fun y => mul_pos two_pos (hd _ _ y.1.2 y.2.2)) (fun t _ => hV0 (x t)) hV
  refine ⟨tendsto_pi_nhds.2 fun y => ?_, h1⟩
  -- the springs are relaxed in the limit
  have hmass : ∀ z : mb.Ix, Tendsto (fun t => mb.massAt (mb.unflat (x t).2.1) y.1 y.2 z.1 z.2 * F (0, (x t).2.1, 0) z) atTop (𝓝 0) := fun z => by
    have hc : ContDiff ℝ 1 fun q : mb.Ix → ℝ => mb.massAt (mb.unflat q) y.1 y.2 z.1 z.2 := (DiffDof.unflat M.wf contDiff_id).massAt M.wf M.simple _ _ _ _
    obtain ⟨B, hB, hb⟩ := bounded_on_ball hc.continuous Q
    have h3 : Tendsto (fun t => B * ‖F (0, (x t).2.1, 0) z‖) atTop (𝓝 0) := by
      have := ((tendsto_pi_nhds.1 h2 z).norm).const_mul B
      simpa using this
    refine squeeze_zero_norm' ?_ h3
    filter_upwards [eventually_ge_atTop 0] with t ht
    rw [norm_mul]
    exact mul_le_mul_of_nonneg_right (hb _ (nq t ht)) (norm_nonneg _)
  have hsum : Tendsto (fun t => -kp y.1 y.2 * ((x t).2.1 y - entry goal y.1 y.2)) atTop (𝓝 0) := by
    have := tendsto_finsetSum Finset.univ fun z _ => hmass z
    rw [Finset.sum_const_zero] at this
    refine this.congr fun t => ?_
    rw [rest_force M (kd := kd) (x t).2.1 0 y]
  have hk : -kp y.1 y.2 ≠ 0 := neg_ne_zero.2 (hp _ _ y.1.2 y.2.2).ne'
  have h5 := (hsum.const_mul (-kp y.1 y.2)⁻¹).add_const (entry goal y.1 y.2)
  rw [mul_zero, zero_add] at h5
  refine h5.congr fun t => ?_
  rw [inv_mul_cancel_left₀ hk, sub_add_cancel]

/-! ### C93 -/

/-- C93: under a servo law with positive gains every motion of the robot comes to rest at the goal, from all positions and velocities, whatever the gravity and the
forces of the environment are. -/
theorem C93_settles (M : Machine mb solve) (he : SmoothForces mb env) (h : ServoLaw mb law env γ kp kd goal)
    (hp : ∀ i a, i < mb.bodies.length → a < mb.dofAt i → 0 < kp i a) (hd : ∀ i a, i < mb.bodies.length → a < mb.dofAt i → 0 < kd i a)
    {mbc : ℝ → MBC ℝ} (hm : Motion mb solve law env γ (Set.Ici 0) mbc) {i a : Nat} (hi : i < mb.bodies.length) (ha : a < mb.dofAt i) :
    Tendsto (fun t => entry (mbc t).q i a) atTop (𝓝 (entry goal i a)) ∧ Tendsto (fun t => entry (mbc t).alpha i a) atTop (𝓝 0) := by
  have := flow_settles M hp hd (goal := goal) (x := fun t => (mbc t).coords mb t) fun t ht => by
    rw [← h.flow M he.length]
    exact hm.flow M ht
  exact ⟨tendsto_pi_nhds.1 this.1 ⟨⟨i, hi⟩, ⟨a, ha⟩⟩, tendsto_pi_nhds.1 this.2 ⟨⟨i, hi⟩, ⟨a, ha⟩⟩⟩

/-- The kinetic energy, computed from the velocities of the bodies that are stored in the state. -/
noncomputable def MBC.motionEnergy (mb : MultiBody ℝ) (m : MBC ℝ) : ℝ :=
  (1 / 2) * ∑ k ∈ Finset.range mb.nrBodies, ((m.bodyVelB[k]?).getD 0).dot ((mb.inertiaAt k).mulMotion ((m.bodyVelB[k]?).getD 0))

/-- The energy of the springs. -/
noncomputable def MBC.springEnergy (mb : MultiBody ℝ) (kp : Nat → Nat → ℝ) (goal : List (List ℝ)) (m : MBC ℝ) : ℝ :=
  (1 / 2) * mb.dofSum fun i a => kp i a * (entry m.q i a - entry goal i a) ^ 2

theorem servoEnergy_eq (M : Machine mb solve) {m : MBC ℝ} (sz : m.Sized mb) (hv : m.VelReady mb) (t : ℝ) :
    mb.servoEnergy kp goal (m.coords mb t) = 2 * (m.motionEnergy mb + m.springEnergy mb kp goal) := by
  unfold MultiBody.servoEnergy MBC.motionEnergy MBC.springEnergy MultiBody.kin2 MBC.coords
  dsimp only
  rw [MultiBody.unflat_flat M.wf (M.sizedQ.1 sz.q), MultiBody.unflat_flat M.wf sz.alpha, MultiBody.dofSum_ix, mul_add, ← mul_assoc, ← mul_assoc]
  norm_num
  refine congrArg₂ _ (Finset.sum_congr rfl fun k hk => ?_) rfl
  have hk' : k < mb.bodies.length := Finset.mem_range.1 hk
  rw [hv.bodyVelB, range_map_getElem? hk', Option.getD_some]

/-- C93: the energy of motion and springs together never grows. -/
theorem C93_energy (M : Machine mb solve) (he : SmoothForces mb env) (h : ServoLaw mb law env γ kp kd goal)
    (hd : ∀ i a, i < mb.bodies.length → a < mb.dofAt i → 0 ≤ kd i a) {mbc : ℝ → MBC ℝ} (hm : Motion mb solve law env γ (Set.Ici 0) mbc) {s t : ℝ}
    (hs : 0 ≤ s) (hst : s ≤ t) :
    (mbc t).motionEnergy mb + (mbc t).springEnergy mb kp goal ≤ (mbc s).motionEnergy mb + (mbc s).springEnergy mb kp goal := by
  have hV := fun t (ht : (0 : ℝ) ≤ t) => servoEnergy_rate M (kp := kp) (kd := kd) (goal := goal) (x := fun t => (mbc t).coords mb t) (t := t) (by
    rw [← h.flow M he.length]
    exact hm.flow M ht)
  have := decreasing_on hV (fun u _ => by
    have : 0 ≤ ∑ y : mb.Ix, 2 * kd y.1 y.2 * ((mbc u).coords mb u).2.2 y ^ 2 := Finset.sum_nonneg fun y _ =>
      mul_nonneg (mul_nonneg two_pos.le (hd _ _ y.1.2 y.2.2)) (sq_nonneg _)
    linarith) (Set.mem_Ici.2 hs) (Set.mem_Ici.2 (hs.trans hst)) hst
  dsimp only at this
  rw [servoEnergy_eq M (hm.sized t (hs.trans hst)) (hm.ready t (hs.trans hst)), servoEnergy_eq M (hm.sized s hs) (hm.ready s hs)] at this
  linarith

/-- C93: from all positions and velocities there is such a motion, for all times. -/
theorem C93_exists (M : Machine mb solve) (hl : SmoothLaw mb law) (he : SmoothForces mb env) (h : ServoLaw mb law env γ kp kd goal)
    {q₀ α₀ : List (List ℝ)} (hq : SizedDof mb q₀) (ha : SizedDof mb α₀) (t₀ : ℝ) :
    ∃ mbc : ℝ → MBC ℝ, (mbc t₀).q = q₀ ∧ (mbc t₀).alpha = α₀ ∧ Motion mb solve law env γ Set.univ mbc := by
  obtain ⟨mbc', e1, e2, h'⟩ := C90_forever M (pdLaw_smooth M) calm_smooth (pdLaw_linear M (kp := kp) (kd := kd) (goal := goal)) (calm_linear M) 0 hq ha t₀
  obtain ⟨mbc, k1, k2⟩ := Motion.of_flow M hl he (γ := γ) (I := Set.univ) (x := fun t => (mbc' t).coords mb t)
    (fun t ht => by rw [h.flow M he.length]; exact h'.flow M ht) fun t _ => rfl
  refine ⟨mbc, ?_, ?_, k2⟩
  · rw [(k1 t₀).1]
    show mb.unflat (mb.flat _) = _
    rw [e1, MultiBody.unflat_flat M.wf hq]
  · rw [(k1 t₀).2]
    show mb.unflat (mb.flat _) = _
    rw [e2, MultiBody.unflat_flat M.wf ha]

/-- C93: the simulator shows it: for every tolerance there is a time such that all longer simulations with sufficiently many periods end at the goal and at rest,
up to the tolerance. -/
theorem C93_simulation (M : Machine mb solve) (hl : SmoothLaw mb law) (he : SmoothForces mb env) (h : ServoLaw mb law env γ kp kd goal)
    (hp : ∀ i a, i < mb.bodies.length → a < mb.dofAt i → 0 < kp i a) (hd : ∀ i a, i < mb.bodies.length → a < mb.dofAt i → 0 < kd i a)
    {q₀ α₀ : List (List ℝ)} (hq : SizedDof mb q₀) (ha : SizedDof mb α₀) {ε : ℝ} (hε : 0 < ε) :
    ∃ T : ℝ, ∀ t, T ≤ t → ∃ n₀ : ℕ, ∀ (n : ℕ) (prec : ℝ) (s₀ : FD ℝ × MBC ℝ), n₀ ≤ n → 0 < prec → SimState mb s₀ → s₀.2.gravity = γ →
      s₀.2.q = q₀ → s₀.2.alpha = α₀ → ∃ N s',
        (∀ fuel, N ≤ fuel → simulate fuel mb solve (sampledForces env (t / n)) (sampled law (t / n)) (t / n) prec n s₀ = .ok s') ∧
        ∀ i a, i < mb.bodies.length → a < mb.dofAt i → |entry s'.2.q i a - entry goal i a| < ε ∧ |entry s'.2.alpha i a| < ε := by
  obtain ⟨mbc, e1, e2, hm⟩ := C93_exists M hl he h hq ha 0
  have hm0 := hm.mono (Set.subset_univ (Set.Ici 0))
  have hev : ∀ᶠ t in atTop, ∀ y : mb.Ix, |entry (mbc t).q y.1 y.2 - entry goal y.1 y.2| < ε / 2 ∧ |entry (mbc t).alpha y.1 y.2| < ε / 2 := by
    refine eventually_all.2 fun y => ?_
    obtain ⟨k1, k2⟩ := C93_settles M he h hp hd hm0 y.1.2 y.2.2
    filter_upwards [Metric.tendsto_nhds.1 k1 (ε / 2) (half_pos hε), Metric.tendsto_nhds.1 k2 (ε / 2) (half_pos hε)] with t h1 h2
    rw [Real.dist_eq] at h1
    rw [Real.dist_eq, sub_zero] at h2
    exact ⟨h1, h2⟩
  obtain ⟨T, hT⟩ := eventually_atTop.1 hev
  refine ⟨max T 1, fun t ht => ?_⟩
  have ht0 : 0 < t := lt_of_lt_of_le one_pos ((le_max_right _ _).trans ht)
  obtain ⟨n₀, key⟩ := C88_limit M hl he (hm.mono (Set.subset_univ (Set.Icc 0 t))) ht0 le_rfl (half_pos hε)
  refine ⟨n₀, fun n prec s₀ hn hpr S hg k1 k2 => ?_⟩
  obtain ⟨N, s', j1, j2⟩ := key n prec s₀ hn hpr S hg (by rw [e1, k1]) (by rw [e2, k2])
  refine ⟨N, s', j1, fun i a hi hal => ?_⟩
  obtain ⟨g1, g2⟩ := hT t ((le_max_left _ _).trans ht) ⟨⟨i, hi⟩, ⟨a, hal⟩⟩
  obtain ⟨g3, g4⟩ := j2 i a hi hal
  dsimp only at g1 g2
  constructor
  · have := abs_sub_le (entry s'.2.q i a) (entry (mbc t).q i a) (entry goal i a)
    linarith
  · have := abs_add_le (entry s'.2.alpha i a - entry (mbc t).alpha i a) (entry (mbc t).alpha i a)
    rw [sub_add_cancel] at this
    linarith

/-- C93: the dampers are needed: without them no motion of the robot comes to rest at the goal, except the one that is there for ever. -/
theorem C93_undamped (M : Machine mb solve) (he : SmoothForces mb env) (h : ServoLaw mb law env γ kp (fun _ _ => 0) goal)
    (hp : ∀ i a, i < mb.bodies.length → a < mb.dofAt i → 0 < kp i a) {mbc : ℝ → MBC ℝ} (hm : Motion mb solve law env γ (Set.Ici 0) mbc)
    (hlim : ∀ i a, i < mb.bodies.length → a < mb.dofAt i →
      Tendsto (fun t => entry (mbc t).q i a) atTop (𝓝 (entry goal i a)) ∧ Tendsto (fun t => entry (mbc t).alpha i a) atTop (𝓝 0))
    {t : ℝ} (ht : 0 ≤ t) {i a : Nat} (hi : i < mb.bodies.length) (ha : a < mb.dofAt i) :
    entry (mbc t).q i a = entry goal i a ∧ entry (mbc t).alpha i a = 0 := by
  set x : ℝ → mb.Space := fun t => (mbc t).coords mb t with hx
  have hV := fun t (ht : (0 : ℝ) ≤ t) => servoEnergy_rate M (kp := kp) (kd := fun _ _ => 0) (goal := goal) (x := x) (t := t) (by
    rw [← h.flow M he.length]
    exact hm.flow M ht)
  simp only [mul_zero, zero_mul, Finset.sum_const_zero, neg_zero] at hV
  have hc : ContDiff ℝ 1 (mb.servoEnergy kp goal) := by
    have hq : DiffDof mb fun w : mb.Space => mb.unflat w.2.1 := .unflat M.wf (contDiff_fst.comp contDiff_snd)
    have ha : DiffDof mb fun w : mb.Space => mb.unflat w.2.2 := .unflat M.wf (contDiff_snd.comp contDiff_snd)
    unfold MultiBody.servoEnergy MultiBody.kin2
    refine ContDiff.add (ContDiff.sum fun k _ => ?_) (ContDiff.sum fun y _ => ?_)
    · exact (hq.velAt M.wf M.simple ha k).dot ((hq.velAt M.wf M.simple ha k).inertia _)
    · exact contDiff_const.mul ((((contDiff_apply ℝ ℝ y).comp (contDiff_fst.comp contDiff_snd)).sub contDiff_const).pow 2)
  -- the energy does not change and goes to zero
  have h0 : mb.servoEnergy kp goal (x t) = 0 := by
    have lim : Tendsto (fun s => mb.servoEnergy kp goal (0, (x s).2)) atTop (𝓝 (mb.servoEnergy kp goal (0, mb.flat goal, 0))) := by
      refine (hc.continuous.tendsto _).comp ((tendsto_const_nhds (x := (0 : ℝ))).prodMk_nhds (Tendsto.prodMk_nhds ?_ ?_))
      · exact tendsto_pi_nhds.2 fun y => (hlim _ _ y.1.2 y.2.2).1
      · exact tendsto_pi_nhds.2 fun y => (hlim _ _ y.1.2 y.2.2).2
    have e : mb.servoEnergy kp goal (0, mb.flat goal, 0) = 0 := by
      unfold MultiBody.servoEnergy MultiBody.kin2
      rw [Finset.sum_eq_zero, Finset.sum_eq_zero, add_zero]
      · intro y _
        simp [MultiBody.flat]
      · intro k _
        rw [mb.velAt_rest _ (unflat_rest M)]
        simp [MotionVec.dot]
    rw [e] at lim
    refine tendsto_nhds_unique (tendsto_const_nhds.congr' ?_) lim
    filter_upwards [eventually_ge_atTop t] with s hs
    have a1 := decreasing_on hV (fun _ _ => le_rfl) (Set.mem_Ici.2 ht) (Set.mem_Ici.2 (ht.trans hs)) hs
    have a2 := decreasing_on (fun u hu => (hV u hu).neg) (fun _ _ => by simp) (Set.mem_Ici.2 ht) (Set.mem_Ici.2 (ht.trans hs)) hs
    simp only [Pi.neg_apply] at a2
    exact le_antisymm (neg_le_neg_iff.1 a2) a1
  have pos : ∀ y : mb.Ix, 0 ≤ kp y.1 y.2 * ((x t).2.1 y - entry goal y.1 y.2) ^ 2 := fun y => mul_nonneg (hp _ _ y.1.2 y.2.2).le (sq_nonneg _)
  have hk := M.kin2_nonneg (mb.unflat (x t).2.1) (mb.unflat (x t).2.2)
  have hs := Finset.sum_nonneg fun (y : mb.Ix) (_ : y ∈ Finset.univ) => pos y
  have e1 : mb.kin2 (mb.unflat (x t).2.1) (mb.unflat (x t).2.2) = 0 := by
    unfold MultiBody.servoEnergy at h0
    linarith
  have e2 : ∑ y : mb.Ix, kp y.1 y.2 * ((x t).2.1 y - entry goal y.1 y.2) ^ 2 = 0 := by
    unfold MultiBody.servoEnergy at h0
    linarith
  constructor
  · have := (Finset.sum_eq_zero_iff_of_nonneg fun y _ => pos y).1 e2 ⟨⟨i, hi⟩, ⟨a, ha⟩⟩ (Finset.mem_univ _)
    have := (mul_eq_zero.1 this).resolve_left (hp i a hi ha).ne'
    exact sub_eq_zero.1 (pow_eq_zero_iff two_ne_zero |>.1 this)
  · obtain ⟨C, hC, hent⟩ := M.entry_bound
    have := hent ⟨⟨i, hi⟩, ⟨a, ha⟩⟩ (mb.unflat (x t).2.1) (mb.unflat (x t).2.2) (mb.unflat_sized M.wf _) (mb.unflat_sized M.wf _)
    rw [e1, Real.sqrt_zero, mul_zero, MultiBody.entry_unflat _ hi ha] at this
    exact abs_nonpos_iff.1 this

/-! ### A servo law -/

/-- The servo law for given gains and goal. -/
noncomputable def servoLaw (mb : MultiBody ℝ) (env : ℝ → List (List ℝ) → List (List ℝ) → List (ForceVec ℝ)) (γ : Vec3 ℝ) (kp kd : Nat → Nat → ℝ)
    (goal : List (List ℝ)) (t : ℝ) (q α : List (List ℝ)) : List (List ℝ) :=
  mb.ofEntries fun i a => mb.biasAt q (mb.unflat 0) ⟨0, γ⟩ (fun k => ((env t q α)[k]?).getD 0) i a - kp i a * (entry q i a - entry goal i a) - kd i a * entry α i a

theorem servoLaw_smooth (M : Machine mb solve) (he : SmoothForces mb env) : SmoothLaw mb (servoLaw mb env γ kp kd goal) := by
  have hq : DiffDof mb fun w : mb.Space => mb.unflat w.2.1 := .unflat M.wf (contDiff_fst.comp contDiff_snd)
  have hz : DiffDof mb fun _ : mb.Space => mb.unflat 0 := .unflat M.wf contDiff_const
  refine ⟨fun w => mb.ofEntries_sized M.wf _, fun i a hi ha => ?_⟩
  unfold servoLaw
  simp only [mb.entry_ofEntries _ hi ha, MultiBody.entry_unflat _ hi ha]
  refine ContDiff.sub (ContDiff.sub (hq.biasAt M.wf M.simple hz _ he.smooth i a) ?_) ?_ <;> fun_prop

theorem servoLaw_servo (M : Machine mb solve) : ServoLaw mb (servoLaw mb env γ kp kd goal) env γ kp kd goal := by
  intro t m m' d d' sz hv hg hf hd hs i a hi ha
  rw [is_eq M.wf M.rigid sz (M.valid (M.sizedQ.1 sz.q)) hv hd rfl] at hs
  obtain ⟨-, rfl⟩ := Prod.mk.inj (Except.ok.inj hs)
  dsimp only
  rw [entry_torque M.wf hi ha]
  unfold servoLaw
  rw [mb.entry_ofEntries _ hi ha, bias_split]
  have hz : mb.biasAt m.q (mb.unflat 0) 0 (fun _ => 0) i a = 0 := by
    unfold MultiBody.biasAt
    rw [mb.dot_wrenchAt]
    refine Finset.sum_eq_zero fun k _ => ?_
    rw [MultiBody.netForceAt, mb.accAt_rest _ (unflat_rest M) (by simp), mb.velAt_rest _ (unflat_rest M), PTransform.mulMotion_zero,
      RBInertia.mulMotion_zero]
    simp [PTransform.dualMul, MotionVec.dot]
  rw [hz, zero_add, hg]
  have hfe : m.forceAt = fun k => ((env t m.q m.alpha)[k]?).getD 0 := by
    unfold MBC.forceAt
    rw [hf]
  rw [hfe]

/-! ### Examples -/

/-- The robot with a sliding and a turning joint. -/
theorem Sample.slider : ∃ (mb : MultiBody ℝ) (solve : DMat ℝ → List ℝ → List ℝ), Machine mb solve ∧ mb.joints.map (·.type) = [.Prism, .Rev] ∧
    mb.bodies.length = 2 ∧ (∀ i, i < 2 → mb.dofAt i = 1) ∧ ∀ a b : ℝ, SizedDof mb [[a], [b]] := by
  obtain ⟨mb, solve, mbc, M, ht, hq, ha, hm⟩ := Sample.machine
  have hsz : ∀ a b : ℝ, SizedDof mb [[a], [b]] := fun a b => by
    have h1 := (hm.sized 0 trivial).alpha
    unfold SizedDof at h1 ⊢
    rw [← h1, ha]
    rfl
  have hl : mb.bodies.length = 2 := by
    have := congrArg List.length ht
    rw [← M.wf.njoints]
    simpa using this
  refine ⟨mb, solve, M, ht, hl, fun i hi => ?_, hsz⟩
  have := (hsz 0 0).getD_length M.wf (i := i) (by omega)
  rw [← this]
  interval_cases i <;> rfl

/-- In the wind and under gravity it is brought from any motion to the positions 1 and 2, and its energy does not grow. -/
example (q₀ q₁ v₀ v₁ : ℝ) : ∃ (mb : MultiBody ℝ) (solve : DMat ℝ → List ℝ → List ℝ), mb.joints.map (·.type) = [.Prism, .Rev] ∧
    ∃ law, SmoothLaw mb law ∧ ServoLaw mb law (wind mb) ⟨0, 0, 9⟩ (fun _ _ => 3) (fun _ _ => 1 / 2) [[1], [2]] ∧
      ∃ mbc : ℝ → MBC ℝ, (mbc 0).q = [[q₀], [q₁]] ∧ (mbc 0).alpha = [[v₀], [v₁]] ∧ Motion mb solve law (wind mb) ⟨0, 0, 9⟩ Set.univ mbc ∧
        Tendsto (fun t => entry (mbc t).q 0 0) atTop (𝓝 1) ∧ Tendsto (fun t => entry (mbc t).q 1 0) atTop (𝓝 2) ∧
        Tendsto (fun t => entry (mbc t).alpha 1 0) atTop (𝓝 0) ∧
        (mbc 8).motionEnergy mb + (mbc 8).springEnergy mb (fun _ _ => 3) [[1], [2]] ≤ (mbc 5).motionEnergy mb + (mbc 5).springEnergy mb (fun _ _ => 3) [[1], [2]] := by
  obtain ⟨mb, solve, M, ht, hl, hdof, hsz⟩ := Sample.slider
  have he := wind_smooth M.wf
  refine ⟨mb, solve, ht, _, servoLaw_smooth M he, servoLaw_servo M, ?_⟩
  obtain ⟨c, e1, e2, h⟩ := C93_exists M (servoLaw_smooth M he) he (servoLaw_servo M) (γ := ⟨0, 0, 9⟩) (kp := fun _ _ => 3) (kd := fun _ _ => 1 / 2)
    (goal := [[1], [2]]) (hsz q₀ q₁) (hsz v₀ v₁) 0
  have key := fun i hi ha => C93_settles M he (servoLaw_servo M) (fun _ _ _ _ => by norm_num) (fun _ _ _ _ => by norm_num) (h.mono (Set.subset_univ _))
    (i := i) (a := 0) hi ha
  exact ⟨c, e1, e2, h, (key 0 (by omega) (by rw [hdof 0 (by omega)]; omega)).1, (key 1 (by omega) (by rw [hdof 1 (by omega)]; omega)).1,
    (key 1 (by omega) (by rw [hdof 1 (by omega)]; omega)).2, C93_energy M he (servoLaw_servo M) (fun _ _ _ _ => by norm_num) (h.mono (Set.subset_univ _))
      (by norm_num) (by norm_num)⟩

/-- Simulations of it end near the goal. -/
example : ∃ (mb : MultiBody ℝ) (solve : DMat ℝ → List ℝ → List ℝ) (law : ℝ → List (List ℝ) → List (List ℝ) → List (List ℝ)),
    mb.joints.map (·.type) = [.Prism, .Rev] ∧ ∃ T : ℝ, ∀ t, T ≤ t → ∃ n₀ : ℕ, ∀ (n : ℕ) (prec : ℝ) (s₀ : FD ℝ × MBC ℝ), n₀ ≤ n → 0 < prec → SimState mb s₀ →
      s₀.2.gravity = ⟨0, 0, 9⟩ → s₀.2.q = [[5], [6]] → s₀.2.alpha = [[7], [8]] → ∃ N s',
        (∀ fuel, N ≤ fuel → simulate fuel mb solve (sampledForces (wind mb) (t / n)) (sampled law (t / n)) (t / n) prec n s₀ = .ok s') ∧
        |entry s'.2.q 1 0 - 2| < 1 / 1000 := by
  obtain ⟨mb, solve, M, ht, hl, hdof, hsz⟩ := Sample.slider
  have he := wind_smooth M.wf
  refine ⟨mb, solve, servoLaw mb (wind mb) ⟨0, 0, 9⟩ (fun _ _ => 3) (fun _ _ => 1 / 2) [[1], [2]], ht, ?_⟩
  obtain ⟨T, hT⟩ := C93_simulation M (servoLaw_smooth M he) he (servoLaw_servo M) (γ := ⟨0, 0, 9⟩) (kp := fun _ _ => 3) (kd := fun _ _ => 1 / 2)
    (goal := [[1], [2]]) (fun _ _ _ _ => by norm_num) (fun _ _ _ _ => by norm_num) (hsz 5 6) (hsz 7 8) (ε := 1 / 1000) (by norm_num)
  refine ⟨T, fun t ht => ?_⟩
  obtain ⟨n₀, hn⟩ := hT t ht
  refine ⟨n₀, fun n prec s₀ h1 h2 h3 h4 h5 h6 => ?_⟩
  obtain ⟨N, s', k1, k2⟩ := hn n prec s₀ h1 h2 h3 h4 h5 h6
  exact ⟨N, s', k1, (k2 1 0 (by omega) (by rw [hdof 1 (by omega)]; omega)).1⟩

/-- Without dampers it does not come to rest at the goal, when it starts elsewhere. -/
example : ∃ (mb : MultiBody ℝ) (solve : DMat ℝ → List ℝ → List ℝ) (law : ℝ → List (List ℝ) → List (List ℝ) → List (List ℝ)) (mbc : ℝ → MBC ℝ),
    ServoLaw mb law (wind mb) ⟨0, 0, 9⟩ (fun _ _ => 3) (fun _ _ => 0) [[1], [2]] ∧ Motion mb solve law (wind mb) ⟨0, 0, 9⟩ Set.univ mbc ∧
      ¬ ∀ i a, i < mb.bodies.length → a < mb.dofAt i →
        Tendsto (fun t => entry (mbc t).q i a) atTop (𝓝 (entry [[1], [2]] i a)) ∧ Tendsto (fun t => entry (mbc t).alpha i a) atTop (𝓝 0) := by
  obtain ⟨mb, solve, M, ht, hl, hdof, hsz⟩ := Sample.slider
  have he := wind_smooth M.wf
  obtain ⟨c, e1, e2, h⟩ := C93_exists M (servoLaw_smooth M he) he (servoLaw_servo M) (γ := ⟨0, 0, 9⟩) (kp := fun _ _ => 3) (kd := fun _ _ => 0)
    (goal := [[1], [2]]) (hsz 5 6) (hsz 0 0) 0
  refine ⟨mb, solve, _, c, servoLaw_servo M, h, fun hlim => ?_⟩
  have := (C93_undamped M he (servoLaw_servo M) (fun _ _ _ _ => by norm_num) (h.mono (Set.subset_univ _)) hlim le_rfl (i := 0) (a := 0) (by omega)
    (by rw [hdof 0 (by omega)]; omega)).1
  rw [e1] at this
  norm_num [entry] at this

end RBDyn
