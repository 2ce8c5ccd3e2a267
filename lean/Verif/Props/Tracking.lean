import Verif.Props.Settles
import Mathlib.Analysis.SpecialFunctions.Exponential

/-! Property C94: with the torques that `inverseDynamics` computes for corrected accelerations the robot follows every trajectory. -/

namespace RBDyn
open scoped Mat3 Topology
open Filter

/-- Tracking by inverse dynamics (computed torque): the torques are those that `inverseDynamics` computes at the momentary positions and velocities for the corrected
accelerations of the reference. -/
def TrackLaw (mb : MultiBody ℝ) (law : ℝ → List (List ℝ) → List (List ℝ) → List (List ℝ)) (env : ℝ → List (List ℝ) → List (List ℝ) → List (ForceVec ℝ))
    (γ : Vec3 ℝ) (kp kd : Nat → Nat → ℝ) (pos vel acc : ℝ → Nat → Nat → ℝ) : Prop :=
  ∀ (t : ℝ) (m m' : MBC ℝ) (d d' : ID ℝ), m.Sized mb → m.VelReady mb → m.gravity = γ → m.force = env t m.q m.alpha → d.f.length = mb.nrBodies →
    (∀ i a, i < mb.bodies.length → a < mb.dofAt i → entry m.alphaD i a = acc t i a - kd i a * (entry m.alpha i a - vel t i a) -
      kp i a * (entry m.q i a - pos t i a)) →
    d.inverseDynamics mb m = .ok (d', m') → law t m.q m.alpha = m'.jointTorque

/-- A reference trajectory with its velocities and accelerations. -/
structure Reference (pos vel acc : ℝ → Nat → Nat → ℝ) : Prop where
  moves : ∀ t i a, HasDerivAt (fun s => pos s i a) (vel t i a) t
  rate : ∀ t i a, HasDerivAt (fun s => vel s i a) (acc t i a) t

variable {mb : MultiBody ℝ} {solve : DMat ℝ → List ℝ → List ℝ} {law : ℝ → List (List ℝ) → List (List ℝ) → List (List ℝ)}
  {env : ℝ → List (List ℝ) → List (List ℝ) → List (ForceVec ℝ)} {γ : Vec3 ℝ} {kp kd : Nat → Nat → ℝ} {pos vel acc : ℝ → Nat → Nat → ℝ}

/-- Under a tracking law the accelerations are the wished ones. -/
theorem TrackLaw.accel (M : Machine mb solve) (h : TrackLaw mb law env γ kp kd pos vel acc) (he : ∀ t q α, (env t q α).length = mb.bodies.length) (w : mb.Space) :
    accelAt mb law env γ w = fun y => acc w.1 y.1 y.2 - kd y.1 y.2 * (w.2.2 y - vel w.1 y.1 y.2) - kp y.1 y.2 * (w.2.1 y - pos w.1 y.1 y.2) := by
  set r : mb.Ix → ℝ := fun y => acc w.1 y.1 y.2 - kd y.1 y.2 * (w.2.2 y - vel w.1 y.1 y.2) - kp y.1 y.2 * (w.2.1 y - pos w.1 y.1 y.2) with hr
  have hsz := fun v : mb.Ix → ℝ => mb.unflat_sized M.wf v
  obtain ⟨m, sz, hv, e1, e2, e5, e3, e4, -⟩ := config_exists M (hsz w.2.1) (hsz w.2.2) (hsz r) (hsz 0)
    (he w.1 (mb.unflat w.2.1) (mb.unflat w.2.2)) γ
  have hl : (⟨List.replicate mb.bodies.length 0⟩ : ID ℝ).f.length = mb.bodies.length := by simp
  have hs := id_eq M.wf M.rigid sz (M.valid (M.sizedQ.1 sz.q)) hv hl rfl
  have key := h w.1 m _ _ _ sz hv e4 (by rw [e3, e1, e2]) hl (fun i a hi ha => by
    rw [e5, e2, e1, MultiBody.entry_unflat _ hi ha, MultiBody.entry_unflat _ hi ha, MultiBody.entry_unflat _ hi ha]) hs
  dsimp only at key
  rw [e1, e2, e4, e5] at key
  have hfe : m.forceAt = fun k => ((env w.1 (mb.unflat w.2.1) (mb.unflat w.2.2))[k]?).getD 0 := by
    unfold MBC.forceAt
    rw [e3]
  rw [hfe] at key
  have := (accOf_iff M.wf M.rigid (M.valid (hsz w.2.1)) M.inertia M.subspace (mb.unflat w.2.2) (law w.1 (mb.unflat w.2.1) (mb.unflat w.2.2)) ⟨0, γ⟩
    (fun k => ((env w.1 (mb.unflat w.2.1) (mb.unflat w.2.2))[k]?).getD 0) (mb.unflat r)).1 fun i a hi ha => by
      rw [key, entry_torque M.wf hi ha]
  rw [MultiBody.flat_unflat] at this
  exact this.symm

/-! ### The errors -/

/-- The errors of position and velocity along a motion. -/
theorem TrackLaw.errors (M : Machine mb solve) (he : SmoothForces mb env) (h : TrackLaw mb law env γ kp kd pos vel acc) (hr : Reference pos vel acc)
    {I : Set ℝ} {mbc : ℝ → MBC ℝ} (hm : Motion mb solve law env γ I mbc) {t : ℝ} (ht : t ∈ I) {i a : Nat} (hi : i < mb.bodies.length) (ha : a < mb.dofAt i) :
    HasDerivAt (fun s => entry (mbc s).q i a - pos s i a) (entry (mbc t).alpha i a - vel t i a) t ∧
    HasDerivAt (fun s => entry (mbc s).alpha i a - vel s i a)
      (-kd i a * (entry (mbc t).alpha i a - vel t i a) - kp i a * (entry (mbc t).q i a - pos t i a)) t := by
  have hx := hm.flow M ht
  have h1 := hasDerivAt_pi.1 (((ContinuousLinearMap.fst ℝ (mb.Ix → ℝ) (mb.Ix → ℝ)).comp
        (ContinuousLinearMap.snd ℝ ℝ ((mb.Ix → ℝ) × (mb.Ix → ℝ)))).hasFDerivAt.comp_hasDerivAt t hx) ⟨⟨i, hi⟩, ⟨a, ha⟩⟩
  have h2 := hasDerivAt_pi.1 (((ContinuousLinearMap.snd ℝ (mb.Ix → ℝ) (mb.Ix → ℝ)).comp
        (ContinuousLinearMap.snd ℝ ℝ ((mb.Ix → ℝ) × (mb.Ix → ℝ)))).hasFDerivAt.comp_hasDerivAt t hx) ⟨⟨i, hi⟩, ⟨a, ha⟩⟩
  refine ⟨HasDerivAt.sub h1 (hr.moves t i a), (HasDerivAt.sub h2 (hr.rate t i a)).congr_deriv ?_⟩
  show accelAt mb law env γ ((mbc t).coords mb t) ⟨⟨i, hi⟩, ⟨a, ha⟩⟩ - acc t i a = _
  rw [h.accel M he.length]
  show acc t i a - kd i a * (entry (mbc t).alpha i a - vel t i a) - kp i a * (entry (mbc t).q i a - pos t i a) - acc t i a = _
  ring

/-- C94: under a tracking law with positive gains the robot, wherever it starts, follows the reference trajectory: the errors of positions and velocities go to
zero, whatever the reference, the gravity and the forces of the environment are. -/
theorem C94_tracks (M : Machine mb solve) (he : SmoothForces mb env) (h : TrackLaw mb law env γ kp kd pos vel acc) (hr : Reference pos vel acc) {i a : Nat}
    (hi : i < mb.bodies.length) (ha : a < mb.dofAt i) (hp : 0 < kp i a) (hd : 0 < kd i a) {mbc : ℝ → MBC ℝ}
    (hm : Motion mb solve law env γ (Set.Ici 0) mbc) :
    Tendsto (fun t => entry (mbc t).q i a - pos t i a) atTop (𝓝 0) ∧ Tendsto (fun t => entry (mbc t).alpha i a - vel t i a) atTop (𝓝 0) := by
  set e : ℝ → ℝ := fun t => entry (mbc t).q i a - pos t i a with hE
  set v : ℝ → ℝ := fun t => entry (mbc t).alpha i a - vel t i a with hv
  have d1 : ∀ t, 0 ≤ t → HasDerivAt e (v t) t := fun t ht => (h.errors M he hr hm ht hi ha).1
  have d2 : ∀ t, 0 ≤ t → HasDerivAt v (-kd i a * v t - kp i a * e t) t := fun t ht => (h.errors M he hr hm ht hi ha).2
  have d3 : ∀ t, 0 ≤ t → HasDerivAt (fun s => v s ^ 2 + kp i a * e s ^ 2) (-(2 * kd i a * v t ^ 2)) t := fun t ht => by
    refine (((d2 t ht).pow 2).add (((d1 t ht).pow 2).const_mul (kp i a))).congr_deriv ?_
    simp
    ring
  have pos' : ∀ t, 0 ≤ v t ^ 2 + kp i a * e t ^ 2 := fun t => add_nonneg (sq_nonneg _) (mul_nonneg hp.le (sq_nonneg _))
  have hle : ∀ t, 0 ≤ t → v t ^ 2 + kp i a * e t ^ 2 ≤ v 0 ^ 2 + kp i a * e 0 ^ 2 := fun t ht =>
    decreasing_le d3 (fun s _ => by
      have : 0 ≤ 2 * kd i a * v s ^ 2 := mul_nonneg (mul_nonneg two_pos.le hd.le) (sq_nonneg _)
      linarith) ht
  set E := v 0 ^ 2 + kp i a * e 0 ^ 2
  have be : ∀ t, 0 ≤ t → |e t| ≤ √(E / kp i a) := fun t ht => by
    rw [← Real.sqrt_sq_eq_abs]
    refine Real.sqrt_le_sqrt ?_
    rw [le_div_iff₀ hp, mul_comm]
    linarith [hle t ht, sq_nonneg (v t)]
  have bv : ∀ t, 0 ≤ t → |v t| ≤ √E := fun t ht => by
    rw [← Real.sqrt_sq_eq_abs]
    refine Real.sqrt_le_sqrt ?_
    have := mul_nonneg hp.le (sq_nonneg (e t))
    linarith [hle t ht]
  have := comes_to_rest (ι := Unit) (A := fun z _ => -kd i a * z.2 () - kp i a * z.1 ()) (contDiff_pi.2 fun _ => by fun_prop) (q := fun t _ => e t)
    (α := fun t _ => v t) (R := max (√(E / kp i a)) (√E)) (fun t ht => by
      rw [Prod.norm_def]
      exact max_le_max ((pi_norm_le_iff_of_nonneg (Real.sqrt_nonneg _)).2 fun _ => be t ht)
        ((pi_norm_le_iff_of_nonneg (Real.sqrt_nonneg _)).2 fun _ => bv t ht))
    (fun t ht => hasDerivAt_pi.2 fun _ => d1 t ht) (fun t ht => hasDerivAt_pi.2 fun _ => d2 t ht) (V := fun s => v s ^ 2 + kp i a * e s ^ 2)
    (D := fun _ => 2 * kd i a) (fun _ => by positivity) (fun t _ => pos' t) (fun t ht => by simpa using d3 t ht)
  refine ⟨?_, tendsto_pi_nhds.1 this.1 ()⟩
  have h3 := (tendsto_pi_nhds.1 this.2 ()).const_mul (-kp i a)⁻¹
  simp only [Pi.zero_apply, mul_zero, zero_sub] at h3
  refine h3.congr fun t => ?_
  field_simp

/-- C94: with gains `λ²` and `2 λ` the error is exactly that of a critically damped oscillator. -/
theorem C94_critical (M : Machine mb solve) (he : SmoothForces mb env) (h : TrackLaw mb law env γ kp kd pos vel acc) (hr : Reference pos vel acc) {i a : Nat}
    (hi : i < mb.bodies.length) (ha : a < mb.dofAt i) {r : ℝ} (hp : kp i a = r ^ 2) (hd : kd i a = 2 * r) {mbc : ℝ → MBC ℝ}
    (hm : Motion mb solve law env γ (Set.Ici 0) mbc) {t : ℝ} (ht : 0 ≤ t) :
    entry (mbc t).q i a - pos t i a = (entry (mbc 0).q i a - pos 0 i a +
      (entry (mbc 0).alpha i a - vel 0 i a + r * (entry (mbc 0).q i a - pos 0 i a)) * t) * Real.exp (-(r * t)) := by
  set e : ℝ → ℝ := fun t => entry (mbc t).q i a - pos t i a with hE
  set v : ℝ → ℝ := fun t => entry (mbc t).alpha i a - vel t i a with hv
  have d1 : ∀ t, 0 ≤ t → HasDerivAt e (v t) t := fun t ht => (h.errors M he hr hm ht hi ha).1
  have d2 : ∀ t, 0 ≤ t → HasDerivAt v (-(2 * r) * v t - r ^ 2 * e t) t := fun t ht => by
    have := (h.errors M he hr hm ht hi ha).2
    rwa [hp, hd] at this
  have dx : ∀ t, HasDerivAt (fun s => Real.exp (r * s)) (Real.exp (r * t) * r) t := fun t => by
    simpa using ((hasDerivAt_id t).const_mul r).exp
  have g1 : ∀ t, 0 ≤ t → (v t + r * e t) * Real.exp (r * t) = v 0 + r * e 0 := fun t ht => by
    have := constant_on (V := fun t => (v t + r * e t) * Real.exp (r * t)) (fun s hs => by
      refine (((d2 s hs).add ((d1 s hs).const_mul r)).mul (dx s)).congr_deriv ?_
      simp only [Pi.add_apply]
      ring) ht
    simpa using this
  have g2 : e t * Real.exp (r * t) - (v 0 + r * e 0) * t = e 0 := by
    have := constant_on (V := fun t => e t * Real.exp (r * t) - (v 0 + r * e 0) * t) (fun s hs => by
      refine (((d1 s hs).mul (dx s)).sub ((hasDerivAt_id s).const_mul (v 0 + r * e 0))).congr_deriv ?_
      rw [← g1 s hs]
      ring) ht
    simpa using this
  show e t = (e 0 + (v 0 + r * e 0) * t) * Real.exp (-(r * t))
  have g3 : e 0 + (v 0 + r * e 0) * t = e t * Real.exp (r * t) := by linarith
  rw [g3, mul_assoc, ← Real.exp_add, add_neg_cancel, Real.exp_zero, mul_one]

/-- C94: a robot that starts on the reference stays on it. -/
theorem C94_follows (M : Machine mb solve) (he : SmoothForces mb env) (h : TrackLaw mb law env γ kp kd pos vel acc) (hr : Reference pos vel acc) {i a : Nat}
    (hi : i < mb.bodies.length) (ha : a < mb.dofAt i) (hp : 0 < kp i a) (hd : 0 ≤ kd i a) {mbc : ℝ → MBC ℝ} (hm : Motion mb solve law env γ (Set.Ici 0) mbc)
    (h1 : entry (mbc 0).q i a = pos 0 i a) (h2 : entry (mbc 0).alpha i a = vel 0 i a) {t : ℝ} (ht : 0 ≤ t) :
    entry (mbc t).q i a = pos t i a ∧ entry (mbc t).alpha i a = vel t i a := by
  have hle := decreasing_le (V := fun s => (entry (mbc s).alpha i a - vel s i a) ^ 2 + kp i a * (entry (mbc s).q i a - pos s i a) ^ 2)
    (f := fun s => -(2 * kd i a * (entry (mbc s).alpha i a - vel s i a) ^ 2)) (fun s hs => by
      obtain ⟨d1, d2⟩ := h.errors M he hr hm hs hi ha
      refine ((d2.pow 2).add ((d1.pow 2).const_mul (kp i a))).congr_deriv ?_
      simp
      ring) (fun s _ => by
      have : 0 ≤ 2 * kd i a * (entry (mbc s).alpha i a - vel s i a) ^ 2 := mul_nonneg (mul_nonneg two_pos.le hd) (sq_nonneg _)
      linarith) ht
  rw [h1, h2, sub_self, sub_self] at hle
  have p1 := sq_nonneg (entry (mbc t).alpha i a - vel t i a)
  have p2 := mul_nonneg hp.le (sq_nonneg (entry (mbc t).q i a - pos t i a))
  have z1 : (entry (mbc t).alpha i a - vel t i a) ^ 2 = 0 := by nlinarith
  have z2 : kp i a * (entry (mbc t).q i a - pos t i a) ^ 2 = 0 := by nlinarith
  exact ⟨sub_eq_zero.1 (pow_eq_zero_iff two_ne_zero |>.1 ((mul_eq_zero.1 z2).resolve_left hp.ne')), sub_eq_zero.1 (pow_eq_zero_iff two_ne_zero |>.1 z1)⟩

/-! ### Existence -/

/-- The linear equation of the errors. -/
noncomputable def errorMap (mb : MultiBody ℝ) (kp kd : Nat → Nat → ℝ) : ((mb.Ix → ℝ) × (mb.Ix → ℝ)) →L[ℝ] ((mb.Ix → ℝ) × (mb.Ix → ℝ)) :=
  LinearMap.toContinuousLinearMap
    { toFun := fun z => (z.2, fun y => -kd y.1 y.2 * z.2 y - kp y.1 y.2 * z.1 y)
      map_add' := fun z z' => by
        refine Prod.ext rfl (funext fun y => ?_)
        simp only [Prod.fst_add, Prod.snd_add, Pi.add_apply]
        ring
      map_smul' := fun c z => by
        refine Prod.ext rfl (funext fun y => ?_)
        simp only [Prod.smul_fst, Prod.smul_snd, Pi.smul_apply, smul_eq_mul, RingHom.id_apply]
        ring }

/-- C94: from all positions and velocities there is such a motion, for all times. -/
theorem C94_exists (M : Machine mb solve) (hl : SmoothLaw mb law) (he : SmoothForces mb env) (h : TrackLaw mb law env γ kp kd pos vel acc)
    (hr : Reference pos vel acc) {q₀ α₀ : List (List ℝ)} (hq : SizedDof mb q₀) (ha : SizedDof mb α₀) :
    ∃ mbc : ℝ → MBC ℝ, (mbc 0).q = q₀ ∧ (mbc 0).alpha = α₀ ∧ Motion mb solve law env γ Set.univ mbc := by
  set L := errorMap mb kp kd
  set z₀ : (mb.Ix → ℝ) × (mb.Ix → ℝ) := (fun y => entry q₀ y.1 y.2 - pos 0 y.1 y.2, fun y => entry α₀ y.1 y.2 - vel 0 y.1 y.2)
  set z : ℝ → (mb.Ix → ℝ) × (mb.Ix → ℝ) := fun t => NormedSpace.exp (t • L) z₀ with hz
  have dz : ∀ t, HasDerivAt z (L (z t)) t := fun t =>
    (((ContinuousLinearMap.apply ℝ ((mb.Ix → ℝ) × (mb.Ix → ℝ)) z₀).hasFDerivAt).comp_hasDerivAt t (hasDerivAt_exp_smul_const' L t))
  have z0 : z 0 = z₀ := by simp [hz]
  set x : ℝ → mb.Space := fun t => (t, fun y => pos t y.1 y.2 + (z t).1 y, fun y => vel t y.1 y.2 + (z t).2 y) with hx
  have dx : ∀ t, HasDerivAt x (RBDyn.flow mb law env γ (x t)) t := fun t => by
    refine (hasDerivAt_id t).prodMk (HasDerivAt.prodMk (hasDerivAt_pi.2 fun y => ?_) (hasDerivAt_pi.2 fun y => ?_))
    · have := hasDerivAt_pi.1 ((ContinuousLinearMap.fst ℝ (mb.Ix → ℝ) (mb.Ix → ℝ)).hasFDerivAt.comp_hasDerivAt t (dz t)) y
      exact HasDerivAt.add (hr.moves t y.1 y.2) this
    · have := hasDerivAt_pi.1 ((ContinuousLinearMap.snd ℝ (mb.Ix → ℝ) (mb.Ix → ℝ)).hasFDerivAt.comp_hasDerivAt t (dz t)) y
      refine (HasDerivAt.add (hr.rate t y.1 y.2) this).congr_deriv ?_
      show _ = accelAt mb law env γ (x t) y
      rw [h.accel M he.length]
      show acc t y.1 y.2 + (-kd y.1 y.2 * (z t).2 y - kp y.1 y.2 * (z t).1 y) = acc t y.1 y.2 - kd y.1 y.2 * (vel t y.1 y.2 + (z t).2 y - vel t y.1 y.2) -
        kp y.1 y.2 * (pos t y.1 y.2 + (z t).1 y - pos t y.1 y.2)
      ring
  obtain ⟨mbc, k1, k2⟩ := Motion.of_flow M hl he (I := Set.univ) (fun t _ => dx t) fun t _ => rfl
  refine ⟨mbc, ?_, ?_, k2⟩
  · rw [(k1 0).1, ← MultiBody.unflat_flat M.wf hq]
    congr 1
    funext y
    show pos 0 y.1 y.2 + (z 0).1 y = entry q₀ y.1 y.2
    rw [z0]
    exact add_sub_cancel _ _
  · rw [(k1 0).2, ← MultiBody.unflat_flat M.wf ha]
    congr 1
    funext y
    show vel 0 y.1 y.2 + (z 0).2 y = entry α₀ y.1 y.2
    rw [z0]
    exact add_sub_cancel _ _

/-- C94: the simulator shows it: for every tolerance there is a time such that all longer simulations with sufficiently many periods end on the reference and with
its velocities, up to the tolerance. -/
theorem C94_simulation (M : Machine mb solve) (hl : SmoothLaw mb law) (he : SmoothForces mb env) (h : TrackLaw mb law env γ kp kd pos vel acc)
    (hr : Reference pos vel acc) (hp : ∀ i a, i < mb.bodies.length → a < mb.dofAt i → 0 < kp i a)
    (hd : ∀ i a, i < mb.bodies.length → a < mb.dofAt i → 0 < kd i a) {q₀ α₀ : List (List ℝ)} (hq : SizedDof mb q₀) (ha : SizedDof mb α₀) {ε : ℝ} (hε : 0 < ε) :
    ∃ T : ℝ, ∀ t, T ≤ t → ∃ n₀ : ℕ, ∀ (n : ℕ) (prec : ℝ) (s₀ : FD ℝ × MBC ℝ), n₀ ≤ n → 0 < prec → SimState mb s₀ → s₀.2.gravity = γ →
      s₀.2.q = q₀ → s₀.2.alpha = α₀ → ∃ N s',
        (∀ fuel, N ≤ fuel → simulate fuel mb solve (sampledForces env (t / n)) (sampled law (t / n)) (t / n) prec n s₀ = .ok s') ∧
        ∀ i a, i < mb.bodies.length → a < mb.dofAt i → |entry s'.2.q i a - pos t i a| < ε ∧ |entry s'.2.alpha i a - vel t i a| < ε := by
  obtain ⟨mbc, e1, e2, hm⟩ := C94_exists M hl he h hr hq ha
  have hm0 := hm.mono (Set.subset_univ (Set.Ici 0))
  have hev : ∀ᶠ t in atTop, ∀ y : mb.Ix, |entry (mbc t).q y.1 y.2 - pos t y.1 y.2| < ε / 2 ∧ |entry (mbc t).alpha y.1 y.2 - vel t y.1 y.2| < ε / 2 := by
    refine eventually_all.2 fun y => ?_
    obtain ⟨k1, k2⟩ := C94_tracks M he h hr y.1.2 y.2.2 (hp _ _ y.1.2 y.2.2) (hd _ _ y.1.2 y.2.2) hm0
    filter_upwards [Metric.tendsto_nhds.1 k1 (ε / 2) (half_pos hε), Metric.tendsto_nhds.1 k2 (ε / 2) (half_pos hε)] with t h1 h2
    rw [Real.dist_eq, sub_zero] at h1 h2
    exact ⟨h1, h2⟩
  obtain ⟨T, hT⟩ := eventually_atTop.1 hev
  refine ⟨max T 1, fun t ht => ?_⟩
  have ht0 : 0 < t := lt_of_lt_of_le one_pos ((le_max_right _ _).trans ht)
  obtain ⟨n₀, key⟩ := C88_limit M hl he (hm.mono (Set.subset_univ (Set.Icc 0 t))) ht0 le_rfl (half_pos hε)
  refine ⟨n₀, fun n prec s₀ hn hpr S hg k1 k2 => ?_⟩
  obtain ⟨N, s', j1, j2⟩ := key n prec s₀ hn hpr S hg (by rw [e1, k1]) (by rw [e2, k2])
  refine ⟨N, s', j1, fun i a hi hal => ?_⟩
  obtain ⟨g1, g2⟩ := hT t ((le_max_left _ _).trans ht) ⟨⟨i, hi⟩, ⟨a, hal⟩⟩
  obtain ⟨g3, g4⟩ := j2 i a hi hal
  dsimp only at g1 g2
  constructor
  · have := abs_sub_le (entry s'.2.q i a) (entry (mbc t).q i a) (pos t i a)
    linarith
  · have := abs_sub_le (entry s'.2.alpha i a) (entry (mbc t).alpha i a) (vel t i a)
    linarith

/-! ### A tracking law -/

/-- The tracking law for given gains and reference. -/
noncomputable def trackLaw (mb : MultiBody ℝ) (env : ℝ → List (List ℝ) → List (List ℝ) → List (ForceVec ℝ)) (γ : Vec3 ℝ) (kp kd : Nat → Nat → ℝ)
    (pos vel acc : ℝ → Nat → Nat → ℝ) (t : ℝ) (q α : List (List ℝ)) : List (List ℝ) :=
  mb.ofEntries fun i a => (mb.dofSum fun j b => mb.massAt q i a j b * (acc t j b - kd j b * (entry α j b - vel t j b) - kp j b * (entry q j b - pos t j b))) +
    mb.biasAt q α ⟨0, γ⟩ (fun k => ((env t q α)[k]?).getD 0) i a

theorem trackLaw_smooth (M : Machine mb solve) (he : SmoothForces mb env) (h1 : ∀ i a, ContDiff ℝ 1 fun t => pos t i a)
    (h2 : ∀ i a, ContDiff ℝ 1 fun t => vel t i a) (h3 : ∀ i a, ContDiff ℝ 1 fun t => acc t i a) : SmoothLaw mb (trackLaw mb env γ kp kd pos vel acc) := by
  have hq : DiffDof mb fun w : mb.Space => mb.unflat w.2.1 := .unflat M.wf (contDiff_fst.comp contDiff_snd)
  have ha : DiffDof mb fun w : mb.Space => mb.unflat w.2.2 := .unflat M.wf (contDiff_snd.comp contDiff_snd)
  refine ⟨fun w => mb.ofEntries_sized M.wf _, fun i a hi hal => ?_⟩
  unfold trackLaw
  simp only [mb.entry_ofEntries _ hi hal, MultiBody.dofSum_ix]
  refine ContDiff.add (ContDiff.sum fun y _ => (hq.massAt M.wf M.simple _ _ _ _).mul ?_) (hq.biasAt M.wf M.simple ha _ he.smooth i a)
  exact (((h3 _ _).comp contDiff_fst).sub (contDiff_const.mul ((ha.entry M.wf _ _).sub ((h2 _ _).comp contDiff_fst)))).sub
    (contDiff_const.mul ((hq.entry M.wf _ _).sub ((h1 _ _).comp contDiff_fst)))

theorem trackLaw_track (M : Machine mb solve) : TrackLaw mb (trackLaw mb env γ kp kd pos vel acc) env γ kp kd pos vel acc := by
  intro t m m' d d' sz hv hg hf hd hw hs
  rw [id_eq M.wf M.rigid sz (M.valid (M.sizedQ.1 sz.q)) hv hd rfl] at hs
  obtain ⟨-, rfl⟩ := Prod.mk.inj (Except.ok.inj hs)
  refine SizedDof.ext_entry M.wf (mb.ofEntries_sized M.wf _) (project_sized M.wf _) fun i a hi ha => ?_
  rw [entry_torque M.wf hi ha, M.wf.torque_split]
  unfold trackLaw
  rw [mb.entry_ofEntries _ hi ha]
  have hfe : m.forceAt = fun k => ((env t m.q m.alpha)[k]?).getD 0 := by
    unfold MBC.forceAt
    rw [hf]
  rw [hfe, hg]
  refine congrArg₂ _ (dofSum_congr fun j b hj hb => ?_) rfl
  rw [hw j b hj hb]

/-! ### Examples -/

/-- The robot with a sliding and a turning joint swings after a sine and a parabola, in the wind and under gravity, wherever it starts. -/
example (q₀ q₁ v₀ v₁ : ℝ) : ∃ (mb : MultiBody ℝ) (solve : DMat ℝ → List ℝ → List ℝ), mb.joints.map (·.type) = [.Prism, .Rev] ∧
    ∃ law, SmoothLaw mb law ∧ ∃ mbc : ℝ → MBC ℝ, (mbc 0).q = [[q₀], [q₁]] ∧ (mbc 0).alpha = [[v₀], [v₁]] ∧
      Motion mb solve law (wind mb) ⟨0, 0, 9⟩ Set.univ mbc ∧ Tendsto (fun t => entry (mbc t).q 1 0 - Real.sin t) atTop (𝓝 0) ∧
      Tendsto (fun t => entry (mbc t).alpha 1 0 - Real.cos t) atTop (𝓝 0) ∧
      entry (mbc 4).q 1 0 - Real.sin 4 = (q₁ + (v₁ - 1 + 3 * q₁) * 4) * Real.exp (-(3 * 4)) := by
  obtain ⟨mb, solve, M, ht, hl, hdof, hsz⟩ := Sample.slider
  have he := wind_smooth M.wf
  have hr : Reference (fun t _ _ => Real.sin t) (fun t _ _ => Real.cos t) (fun t _ _ => -Real.sin t) :=
    ⟨fun t _ _ => Real.hasDerivAt_sin t, fun t _ _ => Real.hasDerivAt_cos t⟩
  have hs : SmoothLaw mb (trackLaw mb (wind mb) ⟨0, 0, 9⟩ (fun _ _ => 3 ^ 2) (fun _ _ => 2 * 3) (fun t _ _ => Real.sin t) (fun t _ _ => Real.cos t)
      (fun t _ _ => -Real.sin t)) :=
    trackLaw_smooth M he (fun _ _ => Real.contDiff_sin) (fun _ _ => Real.contDiff_cos) (fun _ _ => Real.contDiff_sin.neg)
  obtain ⟨c, e1, e2, h⟩ := C94_exists M hs he (trackLaw_track M) hr (hsz q₀ q₁) (hsz v₀ v₁)
  have h1 : 1 < mb.bodies.length := by omega
  have h2 : 0 < mb.dofAt 1 := by rw [hdof 1 (by omega)]; omega
  have key := C94_tracks M he (trackLaw_track M) hr h1 h2 (by norm_num) (by norm_num) (h.mono (Set.subset_univ _))
  have crit := C94_critical M he (trackLaw_track M) hr h1 h2 (r := 3) rfl rfl (h.mono (Set.subset_univ _)) (t := 4) (by norm_num)
  refine ⟨mb, solve, ht, _, hs, c, e1, e2, h, key.1, key.2, crit.trans ?_⟩
  rw [e1, e2]
  simp [entry]

end RBDyn
