import Verif.Lemmas.OdeStart
import Verif.Props.Forever
import Verif.Props.Settles

/-! Property C99: motions depend continuously on their start. -/

namespace RBDyn
open scoped Mat3 Topology
open Filter

variable {mb : MultiBody ℝ} {solve : DMat ℝ → List ℝ → List ℝ} {law : ℝ → List (List ℝ) → List (List ℝ) → List (List ℝ)}
  {env : ℝ → List (List ℝ) → List (List ℝ) → List (ForceVec ℝ)} {γ : Vec3 ℝ}

theorem flat_norm {v : List (List ℝ)} {b : ℝ} (hb : 0 ≤ b) : ‖mb.flat v‖ ≤ b ↔ ∀ i a, i < mb.bodies.length → a < mb.dofAt i → |entry v i a| ≤ b :=
  (pi_norm_le_iff_of_nonneg hb).trans ⟨fun h i a hi ha => h ⟨⟨i, hi⟩, ⟨a, ha⟩⟩, fun h y => h y.1 y.2 y.1.2 y.2.2⟩

theorem Machine.measure_deriv (M : Machine mb solve) (law : ℝ → List (List ℝ) → List (List ℝ) → List (List ℝ))
    (env : ℝ → List (List ℝ) → List (List ℝ) → List (ForceVec ℝ)) (γ : Vec3 ℝ) (w : mb.Space) :
    fderiv ℝ mb.measure w (flow mb law env γ w) = 2 * (∑ y : mb.Ix, w.2.2 y * entry (law w.1 (mb.unflat w.2.1) (mb.unflat w.2.2)) y.1 y.2 +
        ∑ k ∈ Finset.range mb.bodies.length, (mb.velAt (mb.unflat w.2.1) (mb.unflat w.2.2) k).dot
          ((mb.posAt (mb.unflat w.2.1) k).dualMul (((env w.1 (mb.unflat w.2.1) (mb.unflat w.2.2))[k]?).getD 0)) -
        ∑ k ∈ Finset.range mb.bodies.length, (mb.velAt (mb.unflat w.2.1) (mb.unflat w.2.2) k).dot
          ((mb.inertiaAt k).mulMotion ((mb.posAt (mb.unflat w.2.1) k).mulMotion ⟨0, γ⟩))) + ∑ y : mb.Ix, 2 * (w.2.1 y * w.2.2 y) := by
  have hx : HasDerivAt (fun u : ℝ => w + u • flow mb law env γ w) (flow mb law env γ w) 0 := by
    simpa using ((hasDerivAt_id (0 : ℝ)).smul_const (flow mb law env γ w)).const_add w
  have h0 : (fun u : ℝ => w + u • flow mb law env γ w) 0 = w := by simp
  have hk := M.kin2_rate h0 hx
  have hp : HasDerivAt (fun u : ℝ => ∑ y : mb.Ix, ((fun u : ℝ => w + u • flow mb law env γ w) u).2.1 y ^ 2) (∑ y : mb.Ix, 2 * (w.2.1 y * w.2.2 y)) 0 := by
    refine HasDerivAt.fun_sum fun y _ => ?_
    have h2 : HasDerivAt (fun u : ℝ => ((fun u : ℝ => w + u • flow mb law env γ w) u).2.1 y) (w.2.2 y) 0 :=
      hasDerivAt_pi.1 (((ContinuousLinearMap.fst ℝ (mb.Ix → ℝ) (mb.Ix → ℝ)).comp
        (ContinuousLinearMap.snd ℝ ℝ ((mb.Ix → ℝ) × (mb.Ix → ℝ)))).hasFDerivAt.comp_hasDerivAt 0 hx) y
    refine (h2.pow 2).congr_deriv ?_
    rw [h0]
    simp
    ring
  have hd := ((M.measure_diff.differentiable one_ne_zero w).hasFDerivAt).comp_hasDerivAt_of_eq (0 : ℝ) hx h0.symm
  exact hd.unique (hk.add hp)

/-- The measure grows at most exponentially, with one factor for all torques that deviate by at most `E` from the law. -/
theorem Machine.measure_rate_disturbed (M : Machine mb solve) (hll : LinearLaw mb law) (hle : LinearForces mb env) (γ : Vec3 ℝ) (T E : ℝ) :
    ∃ C, ∀ (law' : ℝ → List (List ℝ) → List (List ℝ) → List (List ℝ)) (w : mb.Space), |w.1| ≤ T →
      (∀ y : mb.Ix, |entry (law' w.1 (mb.unflat w.2.1) (mb.unflat w.2.2)) y.1 y.2 - entry (law w.1 (mb.unflat w.2.1) (mb.unflat w.2.2)) y.1 y.2| ≤ E) →
      |fderiv ℝ mb.measure w (flow mb law' env γ w)| ≤ C * (1 + mb.measure w) := by
  obtain ⟨C, hC⟩ := M.measure_rate hll hle γ T
  obtain ⟨D, hD, hst⟩ := M.state_bound
  refine ⟨C + 2 * (Fintype.card mb.Ix * (D * E)), fun law' w hw h => ?_⟩
  have h1 := hC w hw
  rw [M.measure_deriv] at h1 ⊢
  set m := mb.measure w
  have hm : 0 ≤ m := M.measure_nonneg w
  have hs : √m ≤ 1 + m := by nlinarith [Real.sq_sqrt hm, Real.sqrt_nonneg m, sq_nonneg (√m - 1)]
  have h2 : |∑ y : mb.Ix, w.2.2 y * (entry (law' w.1 (mb.unflat w.2.1) (mb.unflat w.2.2)) y.1 y.2 -
      entry (law w.1 (mb.unflat w.2.1) (mb.unflat w.2.2)) y.1 y.2)| ≤ Fintype.card mb.Ix * (D * E) * (1 + m) := by
    refine (Finset.abs_sum_le_sum_abs _ _).trans ((Finset.sum_le_card_nsmul _ _ (D * E * (1 + m)) fun y _ => ?_).trans
      (by rw [nsmul_eq_mul, Finset.card_univ, ← mul_assoc]))
    have h3 := (hst w y.1 y.2).2
    rw [MultiBody.entry_unflat _ y.1.2 y.2.2] at h3
    rw [abs_mul]
    have h4 : |w.2.2 y| ≤ D * (1 + m) := h3.trans (mul_le_mul_of_nonneg_left hs hD)
    exact (mul_le_mul h4 (h y) (abs_nonneg _) (by positivity)).trans (by linarith)
  simp only [mul_sub, Finset.sum_sub_distrib] at h2
  rw [abs_le] at h1 h2 ⊢
  constructor <;> linarith [h1.1, h1.2, h2.1, h2.2]

theorem coords_bounded_disturbed (M : Machine mb solve) (hll : LinearLaw mb law) (hle : LinearForces mb env) (γ : Vec3 ℝ) (t₀ T R E : ℝ) :
    ∃ B, ∀ (law' : ℝ → List (List ℝ) → List (List ℝ) → List (List ℝ)) (mbc : ℝ → MBC ℝ), Motion mb solve law' env γ Set.univ mbc →
      ‖mb.flat (mbc t₀).q‖ ≤ R → ‖mb.flat (mbc t₀).alpha‖ ≤ R →
      (∀ t, |t - t₀| ≤ T → ∀ i a, i < mb.bodies.length → a < mb.dofAt i →
        |entry (mbc t).jointTorque i a - entry (law t (mbc t).q (mbc t).alpha) i a| ≤ E) →
      ∀ t, |t - t₀| ≤ T → ‖(mbc t).coords mb t‖ ≤ B := by
  obtain ⟨B₀, h0, hB⟩ := bounded_on_ball (W := mb.Space) M.measure_diff.continuous (max |t₀| R)
  obtain ⟨C, hC⟩ := M.measure_rate_disturbed hll hle γ (|t₀| + T) E
  obtain ⟨B₁, hB₁⟩ := M.measure_bounds ((1 + B₀) * Real.exp (|C| * T))
  refine ⟨max (|t₀| + T) B₁, fun law' mbc h hq hα hτ t ht => ?_⟩
  have hT : 0 ≤ T := (abs_nonneg _).trans ht
  have hs : mb.measure ((mbc t₀).coords mb t₀) ≤ B₀ := (le_abs_self _).trans (hB _ (by
    unfold MBC.coords
    rw [Prod.norm_def, Prod.norm_def]
    exact max_le (le_max_left _ _) ((max_le hq hα).trans (le_max_right _ _))))
  have hi : ∀ s ∈ Set.Icc (t₀ - T) (t₀ + T), |s - t₀| ≤ T := fun s hs => abs_le.2 ⟨by linarith [hs.1], by linarith [hs.2]⟩
  have hg := growth_bound_on (Φ := fun s => mb.measure ((mbc s).coords mb s)) (convex_Icc (t₀ - T) (t₀ + T)) (t₀ := t₀) (C := C)
    ⟨by linarith, by linarith⟩ (fun s _ => M.measure_nonneg _) (fun s hs => ⟨_,
      (M.measure_diff.differentiable one_ne_zero _).hasFDerivAt.comp_hasDerivAt s (h.flow M (Set.mem_univ s)), hC _ _ (by
        show |s| ≤ _
        have := abs_sub_abs_le_abs_sub s t₀
        linarith [hi s hs]) fun y => by
          unfold MBC.coords
          dsimp only
          rw [MultiBody.unflat_flat M.wf (M.sizedQ.1 (h.sized s trivial).q), MultiBody.unflat_flat M.wf (h.sized s trivial).alpha,
            ← h.torque s trivial]
          exact hτ s (hi s hs) y.1 y.2 y.1.2 y.2.2⟩) (t := t) ⟨by linarith [(abs_le.1 ht).1], by linarith [(abs_le.1 ht).2]⟩
  have hb : mb.measure ((mbc t).coords mb t) ≤ (1 + B₀) * Real.exp (|C| * T) := by
    refine hg.trans (mul_le_mul (by linarith) (Real.exp_le_exp.2 ?_) (Real.exp_nonneg _) (by positivity))
    exact (mul_le_mul_of_nonneg_right (le_abs_self C) (abs_nonneg _)).trans (mul_le_mul_of_nonneg_left ht (abs_nonneg _))
  unfold MBC.coords at *
  rw [Prod.norm_def]
  refine max_le ((?_ : |t| ≤ _).trans (le_max_left _ _)) ((hB₁ _ hb).trans (le_max_right _ _))
  have := abs_sub_abs_le_abs_sub t t₀
  linarith

theorem coords_bounded (M : Machine mb solve) (hll : LinearLaw mb law) (hle : LinearForces mb env) (γ : Vec3 ℝ) (t₀ T R : ℝ) :
    ∃ B, ∀ mbc : ℝ → MBC ℝ, Motion mb solve law env γ Set.univ mbc → ‖mb.flat (mbc t₀).q‖ ≤ R → ‖mb.flat (mbc t₀).alpha‖ ≤ R →
      ∀ t, |t - t₀| ≤ T → ‖(mbc t).coords mb t‖ ≤ B := by
  obtain ⟨B, hB⟩ := coords_bounded_disturbed M hll hle γ t₀ T R 0
  exact ⟨B, fun mbc h hq hα => hB law mbc h hq hα fun t _ i a _ _ => by rw [h.torque t trivial, sub_self, abs_zero]⟩

/-- C99: motions whose start is bounded and whose torques deviate by a bounded amount from the law are bounded over any
bounded time, by a bound that depends only on those and on the time. -/
theorem C99_bounded (M : Machine mb solve) (hll : LinearLaw mb law) (hle : LinearForces mb env) (γ : Vec3 ℝ) (t₀ T R E : ℝ) :
    ∃ B, ∀ (law' : ℝ → List (List ℝ) → List (List ℝ) → List (List ℝ)) (mbc : ℝ → MBC ℝ), Motion mb solve law' env γ Set.univ mbc →
      (∀ i a, i < mb.bodies.length → a < mb.dofAt i → |entry (mbc t₀).q i a| ≤ R ∧ |entry (mbc t₀).alpha i a| ≤ R) →
      (∀ t, |t - t₀| ≤ T → ∀ i a, i < mb.bodies.length → a < mb.dofAt i →
        |entry (mbc t).jointTorque i a - entry (law t (mbc t).q (mbc t).alpha) i a| ≤ E) →
      ∀ t, |t - t₀| ≤ T → ∀ i a, i < mb.bodies.length → a < mb.dofAt i → |entry (mbc t).q i a| ≤ B ∧ |entry (mbc t).alpha i a| ≤ B := by
  obtain ⟨B, hB⟩ := coords_bounded_disturbed M hll hle γ t₀ T (max R 0) E
  refine ⟨B, fun law' mbc h h0 hτ t ht i a hi ha => ?_⟩
  have hb := hB law' mbc h ((flat_norm (le_max_right _ _)).2 fun i a hi ha => (h0 i a hi ha).1.trans (le_max_left _ _))
    ((flat_norm (le_max_right _ _)).2 fun i a hi ha => (h0 i a hi ha).2.trans (le_max_left _ _)) hτ t ht
  have hp : 0 ≤ B := (norm_nonneg _).trans hb
  unfold MBC.coords at hb
  rw [Prod.norm_def, Prod.norm_def] at hb
  have h2 := (le_max_right _ _).trans hb
  exact ⟨(flat_norm hp).1 ((le_max_left _ _).trans h2) i a hi ha, (flat_norm hp).1 ((le_max_right _ _).trans h2) i a hi ha⟩

/-- C99: motions with near starts stay near, over any bounded time, in the past and in the future: their distance is at most a constant times that of the starts. -/
theorem C99_near (M : Machine mb solve) (hl : SmoothLaw mb law) (he : SmoothForces mb env) (hll : LinearLaw mb law) (hle : LinearForces mb env)
    (γ : Vec3 ℝ) (t₀ T R : ℝ) :
    ∃ C, 0 ≤ C ∧ ∀ mbc mbc' : ℝ → MBC ℝ, Motion mb solve law env γ Set.univ mbc → Motion mb solve law env γ Set.univ mbc' →
      (∀ i a, i < mb.bodies.length → a < mb.dofAt i → |entry (mbc t₀).q i a| ≤ R ∧ |entry (mbc t₀).alpha i a| ≤ R) →
      (∀ i a, i < mb.bodies.length → a < mb.dofAt i → |entry (mbc' t₀).q i a| ≤ R ∧ |entry (mbc' t₀).alpha i a| ≤ R) →
      ∀ d, 0 ≤ d → (∀ i a, i < mb.bodies.length → a < mb.dofAt i →
        |entry (mbc t₀).q i a - entry (mbc' t₀).q i a| ≤ d ∧ |entry (mbc t₀).alpha i a - entry (mbc' t₀).alpha i a| ≤ d) →
      ∀ t, |t - t₀| ≤ T → ∀ i a, i < mb.bodies.length → a < mb.dofAt i →
        |entry (mbc t).q i a - entry (mbc' t).q i a| ≤ C * d ∧ |entry (mbc t).alpha i a - entry (mbc' t).alpha i a| ≤ C * d := by
  obtain ⟨B, hB⟩ := coords_bounded M hll hle γ t₀ T (max R 0)
  obtain ⟨L, hL0, hL⟩ := lipschitz_on_ball (flow_diff M hl he γ) B
  refine ⟨Real.exp (L * T), Real.exp_nonneg _, fun mbc mbc' h h' h0 h0' d hd hdist t ht i a hi ha => ?_⟩
  have bd : ∀ {c : ℝ → MBC ℝ}, Motion mb solve law env γ Set.univ c →
      (∀ i a, i < mb.bodies.length → a < mb.dofAt i → |entry (c t₀).q i a| ≤ R ∧ |entry (c t₀).alpha i a| ≤ R) → ∀ t, |t - t₀| ≤ T →
        ‖(c t).coords mb t‖ ≤ B := fun {c} hc h0 t ht =>
    hB c hc ((flat_norm (le_max_right _ _)).2 fun i a hi ha => (h0 i a hi ha).1.trans (le_max_left _ _))
      ((flat_norm (le_max_right _ _)).2 fun i a hi ha => (h0 i a hi ha).2.trans (le_max_left _ _)) t ht
  have key := solution_depends hL0 hL (x := fun s => (mbc s).coords mb s) (y := fun s => (mbc' s).coords mb s) (t₀ := t₀) (T := T)
    (fun s => h.flow M (Set.mem_univ s)) (fun s => h'.flow M (Set.mem_univ s)) (fun s hs => ⟨bd h h0 s hs, bd h' h0' s hs⟩) ht
  have hs : ‖(mbc t₀).coords mb t₀ - (mbc' t₀).coords mb t₀‖ ≤ d := by
    unfold MBC.coords
    rw [Prod.norm_def, Prod.norm_def]
    refine max_le (by simpa using hd) (max_le ((pi_norm_le_iff_of_nonneg hd).2 fun y => (hdist y.1 y.2 y.1.2 y.2.2).1)
      ((pi_norm_le_iff_of_nonneg hd).2 fun y => (hdist y.1 y.2 y.1.2 y.2.2).2))
  have hk := key.trans (mul_le_mul_of_nonneg_right hs (Real.exp_nonneg _))
  rw [mul_comm] at hk
  have hp : 0 ≤ Real.exp (L * T) * d := mul_nonneg (Real.exp_nonneg _) hd
  unfold MBC.coords at hk
  rw [Prod.norm_def, Prod.norm_def] at hk
  have h2 := (le_max_right _ _).trans hk
  exact ⟨(pi_norm_le_iff_of_nonneg hp).1 ((le_max_left _ _).trans h2) ⟨⟨i, hi⟩, ⟨a, ha⟩⟩,
    (pi_norm_le_iff_of_nonneg hp).1 ((le_max_right _ _).trans h2) ⟨⟨i, hi⟩, ⟨a, ha⟩⟩⟩

/-- On bounded states the accelerations depend on the torques with a fixed factor. -/
theorem accelAt_torque (M : Machine mb solve) (env : ℝ → List (List ℝ) → List (List ℝ) → List (ForceVec ℝ)) (γ : Vec3 ℝ) (B : ℝ) :
    ∃ K, 0 ≤ K ∧ ∀ (law law' : ℝ → List (List ℝ) → List (List ℝ) → List (List ℝ)) (w : mb.Space) (ε : ℝ), ‖w‖ ≤ B → 0 ≤ ε →
      (∀ y : mb.Ix, |entry (law' w.1 (mb.unflat w.2.1) (mb.unflat w.2.2)) y.1 y.2 - entry (law w.1 (mb.unflat w.2.1) (mb.unflat w.2.2)) y.1 y.2| ≤ ε) →
      ‖accelAt mb law' env γ w - accelAt mb law env γ w‖ ≤ K * ε := by
  classical
  have hq : DiffDof mb fun w : mb.Space => mb.unflat w.2.1 := .unflat M.wf (contDiff_fst.comp contDiff_snd)
  have hN : Continuous fun (w : mb.Space) (x y : mb.Ix) => (mb.massMat (mb.unflat w.2.1))⁻¹ x y :=
    continuous_pi fun x => continuous_pi fun y => (diff_inv (M := fun w : mb.Space => mb.massMat (mb.unflat w.2.1))
      (fun a b => hq.massAt M.wf M.simple _ _ _ _)
      (fun w => by
        have := massMat_regular M.wf M.rigid (M.valid (mb.unflat_sized M.wf w.2.1)) M.inertia M.subspace
        convert this) x y).continuous
  obtain ⟨K, hK, hb⟩ := bounded_on_ball hN B
  refine ⟨Fintype.card mb.Ix * K, by positivity, fun law law' w ε hw hε h => ?_⟩
  refine (pi_norm_le_iff_of_nonneg (by positivity)).2 fun x => ?_
  have e : (accelAt mb law' env γ w - accelAt mb law env γ w) x = ∑ y, (mb.massMat (mb.unflat w.2.1))⁻¹ x y *
      (entry (law' w.1 (mb.unflat w.2.1) (mb.unflat w.2.2)) y.1 y.2 - entry (law w.1 (mb.unflat w.2.1) (mb.unflat w.2.2)) y.1 y.2) := by
    unfold accelAt MultiBody.accOf
    rw [Pi.sub_apply]
    simp only [Matrix.mulVec, dotProduct]
    rw [← Finset.sum_sub_distrib]
    refine Finset.sum_congr rfl fun y _ => ?_
    rw [← mul_sub, sub_sub_sub_cancel_right]
  rw [e]
  refine (norm_sum_le _ _).trans ((Finset.sum_le_card_nsmul _ _ (K * ε) fun y _ => ?_).trans (by rw [nsmul_eq_mul, Finset.card_univ, mul_assoc]))
  rw [norm_mul]
  exact mul_le_mul (((norm_le_pi_norm _ y).trans (norm_le_pi_norm _ x)).trans (hb w hw)) (h y) (norm_nonneg _) hK

/-- C99: a motion whose torques are disturbed by a small amount, for any reason, stays near the motion without the disturbance: over any bounded time
their distance is at most a constant times the sum of the disturbance and of the distance of the starts. -/
theorem C99_disturbed (M : Machine mb solve) (hl : SmoothLaw mb law) (he : SmoothForces mb env) (hll : LinearLaw mb law) (hle : LinearForces mb env)
    (γ : Vec3 ℝ) (t₀ T R E : ℝ) :
    ∃ C, 0 ≤ C ∧ ∀ (law' : ℝ → List (List ℝ) → List (List ℝ) → List (List ℝ)) (mbc mbc' : ℝ → MBC ℝ),
      Motion mb solve law env γ Set.univ mbc → Motion mb solve law' env γ Set.univ mbc' →
      (∀ i a, i < mb.bodies.length → a < mb.dofAt i → |entry (mbc t₀).q i a| ≤ R ∧ |entry (mbc t₀).alpha i a| ≤ R) →
      (∀ i a, i < mb.bodies.length → a < mb.dofAt i → |entry (mbc' t₀).q i a| ≤ R ∧ |entry (mbc' t₀).alpha i a| ≤ R) →
      ∀ d ε, 0 ≤ d → 0 ≤ ε → ε ≤ E → (∀ i a, i < mb.bodies.length → a < mb.dofAt i →
        |entry (mbc t₀).q i a - entry (mbc' t₀).q i a| ≤ d ∧ |entry (mbc t₀).alpha i a - entry (mbc' t₀).alpha i a| ≤ d) →
      (∀ t, |t - t₀| ≤ T → ∀ i a, i < mb.bodies.length → a < mb.dofAt i →
        |entry (mbc' t).jointTorque i a - entry (law t (mbc' t).q (mbc' t).alpha) i a| ≤ ε) →
      ∀ t, |t - t₀| ≤ T → ∀ i a, i < mb.bodies.length → a < mb.dofAt i →
        |entry (mbc t).q i a - entry (mbc' t).q i a| ≤ C * (d + ε) ∧ |entry (mbc t).alpha i a - entry (mbc' t).alpha i a| ≤ C * (d + ε) := by
  obtain ⟨B', hB⟩ := coords_bounded_disturbed M hll hle γ t₀ T (max R 0) (max E 0)
  obtain ⟨L, hL0, hL⟩ := lipschitz_on_ball (flow_diff M hl he γ) B'
  obtain ⟨K, hK0, hK⟩ := accelAt_torque M env γ B'
  refine ⟨(1 + K) * Real.exp ((L + 1) * T), by positivity, fun law' mbc mbc' h h' h0 h0' d ε hd hε hE hdist hτ t ht i a hi ha => ?_⟩
  have bd : ∀ {l : ℝ → List (List ℝ) → List (List ℝ) → List (List ℝ)} {c : ℝ → MBC ℝ}, Motion mb solve l env γ Set.univ c →
      (∀ i a, i < mb.bodies.length → a < mb.dofAt i → |entry (c t₀).q i a| ≤ R ∧ |entry (c t₀).alpha i a| ≤ R) →
      (∀ t, |t - t₀| ≤ T → ∀ i a, i < mb.bodies.length → a < mb.dofAt i →
        |entry (c t).jointTorque i a - entry (law t (c t).q (c t).alpha) i a| ≤ max E 0) → ∀ t, |t - t₀| ≤ T → ‖(c t).coords mb t‖ ≤ B' :=
    fun {l c} hc h0 hd t ht =>
    hB l c hc ((flat_norm (le_max_right _ _)).2 fun i a hi ha => (h0 i a hi ha).1.trans (le_max_left _ _))
      ((flat_norm (le_max_right _ _)).2 fun i a hi ha => (h0 i a hi ha).2.trans (le_max_left _ _)) hd t ht
  have b1 : ∀ t, |t - t₀| ≤ T → ‖(mbc t).coords mb t‖ ≤ B' :=
    bd h h0 fun t _ i a _ _ => by rw [h.torque t trivial, sub_self, abs_zero]; exact le_max_right _ _
  have b2 : ∀ t, |t - t₀| ≤ T → ‖(mbc' t).coords mb t‖ ≤ B' :=
    bd h' h0' fun t ht i a hi ha => (hτ t ht i a hi ha).trans (hE.trans (le_max_left _ _))
  have key := solution_disturbed hL0 hL (x := fun s => (mbc s).coords mb s) (y := fun s => (mbc' s).coords mb s) (t₀ := t₀) (T := T) (ε := K * ε)
    (fun s => h.flow M (Set.mem_univ s)) (fun s => h'.flow M (Set.mem_univ s)) (fun s hs => by
      unfold flow
      rw [Prod.norm_def, Prod.norm_def]
      have hp : 0 ≤ K * ε := mul_nonneg hK0 hε
      refine max_le (by simpa using hp) (max_le (by simpa using hp) (hK law law' _ ε (b2 s hs) hε fun y => ?_))
      unfold MBC.coords
      dsimp only
      rw [MultiBody.unflat_flat M.wf (M.sizedQ.1 (h'.sized s trivial).q), MultiBody.unflat_flat M.wf (h'.sized s trivial).alpha,
        ← h'.torque s trivial]
      exact hτ s hs y.1 y.2 y.1.2 y.2.2)
    (fun s hs => ⟨b1 s hs, b2 s hs⟩) ht
  have hs : ‖(mbc t₀).coords mb t₀ - (mbc' t₀).coords mb t₀‖ ≤ d := by
    unfold MBC.coords
    rw [Prod.norm_def, Prod.norm_def]
    refine max_le (by simpa using hd) (max_le ((pi_norm_le_iff_of_nonneg hd).2 fun y => (hdist y.1 y.2 y.1.2 y.2.2).1)
      ((pi_norm_le_iff_of_nonneg hd).2 fun y => (hdist y.1 y.2 y.1.2 y.2.2).2))
  have hk : ‖(mbc t).coords mb t - (mbc' t).coords mb t‖ ≤ (1 + K) * Real.exp ((L + 1) * T) * (d + ε) := by
    refine key.trans ?_
    have hx := Real.exp_nonneg ((L + 1) * T)
    have : ‖(mbc t₀).coords mb t₀ - (mbc' t₀).coords mb t₀‖ + K * ε ≤ (1 + K) * (d + ε) := by nlinarith [mul_nonneg hK0 hd]
    exact (mul_le_mul_of_nonneg_right this hx).trans (by linarith)
  have hp : 0 ≤ (1 + K) * Real.exp ((L + 1) * T) * (d + ε) := by positivity
  unfold MBC.coords at hk
  rw [Prod.norm_def, Prod.norm_def] at hk
  have h2 := (le_max_right _ _).trans hk
  exact ⟨(pi_norm_le_iff_of_nonneg hp).1 ((le_max_left _ _).trans h2) ⟨⟨i, hi⟩, ⟨a, ha⟩⟩,
    (pi_norm_le_iff_of_nonneg hp).1 ((le_max_right _ _).trans h2) ⟨⟨i, hi⟩, ⟨a, ha⟩⟩⟩

/-- Two motions of a slider with a pendulum, with springs and dampers, whose starts differ by any small amount. -/
example (d : ℝ) (hd : 0 < d) (hd1 : d ≤ 1) : ∃ (mb : MultiBody ℝ) (solve : DMat ℝ → List ℝ → List ℝ) (mbc mbc' : ℝ → MBC ℝ) (C : ℝ),
    mb.joints.map (·.type) = [.Prism, .Rev] ∧ (mbc 0).q = [[0], [0]] ∧ (mbc' 0).q = [[0], [d]] ∧
    Motion mb solve (pdLaw mb (fun _ _ => 2) (fun _ _ => 3) []) (calm mb) ⟨0, 0, 9⟩ Set.univ mbc ∧
    Motion mb solve (pdLaw mb (fun _ _ => 2) (fun _ _ => 3) []) (calm mb) ⟨0, 0, 9⟩ Set.univ mbc' ∧
    ∀ t, |t| ≤ 10 → |entry (mbc t).q 0 0 - entry (mbc' t).q 0 0| ≤ C * d := by
  obtain ⟨mb, solve, M, ht, hl, hdof, hsz⟩ := Sample.slider
  have hs := pdLaw_smooth M (kp := fun _ _ => 2) (kd := fun _ _ => 3) (goal := [])
  have hlin := pdLaw_linear M (kp := fun _ _ => 2) (kd := fun _ _ => 3) (goal := [])
  obtain ⟨c, e1, e2, h⟩ := C90_forever M hs calm_smooth hlin (calm_linear M) ⟨0, 0, 9⟩ (hsz 0 0) (hsz 0 0) 0
  obtain ⟨c', e1', e2', h'⟩ := C90_forever M hs calm_smooth hlin (calm_linear M) ⟨0, 0, 9⟩ (hsz 0 d) (hsz 0 0) 0
  obtain ⟨C, -, key⟩ := C99_near M hs calm_smooth hlin (calm_linear M) ⟨0, 0, 9⟩ 0 10 1
  have hcase : ∀ i a, i < mb.bodies.length → a < mb.dofAt i → (i = 0 ∨ i = 1) ∧ a = 0 := fun i a hi ha => by
    rw [hl] at hi
    rw [hdof i hi] at ha
    omega
  refine ⟨mb, solve, c, c', C, ht, e1, e1', h, h', fun t htt => (key c c' h h' (fun i a hi ha => ?_) (fun i a hi ha => ?_) d hd.le (fun i a hi ha => ?_) t
    (by simpa using htt) 0 0 (by omega) (by rw [hdof 0 two_pos]; exact one_pos)).1⟩
  all_goals
    obtain ⟨rfl | rfl, rfl⟩ := hcase i a hi ha
    all_goals
      simp only [e1, e2, e1', e2', entry]
      constructor <;> simp [abs_of_pos hd, hd1, hd.le]

/-- Two motions of a slider with a pendulum from the same start, one of them with the goal of its springs displaced. -/
example (g : ℝ) : ∃ (mb : MultiBody ℝ) (solve : DMat ℝ → List ℝ → List ℝ) (mbc mbc' : ℝ → MBC ℝ) (C : ℝ),
    mb.joints.map (·.type) = [.Prism, .Rev] ∧ (mbc 0).q = [[0], [0]] ∧ (mbc' 0).q = [[0], [0]] ∧
    Motion mb solve (pdLaw mb (fun _ _ => 2) (fun _ _ => 3) [[0], [0]]) (calm mb) ⟨0, 0, 9⟩ Set.univ mbc ∧
    Motion mb solve (pdLaw mb (fun _ _ => 2) (fun _ _ => 3) [[g], [g]]) (calm mb) ⟨0, 0, 9⟩ Set.univ mbc' ∧
    ∀ t, |t| ≤ 10 → |entry (mbc t).q 0 0 - entry (mbc' t).q 0 0| ≤ C * (0 + 2 * |g|) := by
  obtain ⟨mb, solve, M, ht, hl, hdof, hsz⟩ := Sample.slider
  obtain ⟨c, e1, e2, h⟩ := C90_forever M (pdLaw_smooth M (kp := fun _ _ => 2) (kd := fun _ _ => 3) (goal := [[0], [0]])) calm_smooth (pdLaw_linear M)
    (calm_linear M) ⟨0, 0, 9⟩ (hsz 0 0) (hsz 0 0) 0
  obtain ⟨c', e1', e2', h'⟩ := C90_forever M (pdLaw_smooth M (kp := fun _ _ => 2) (kd := fun _ _ => 3) (goal := [[g], [g]])) calm_smooth
    (pdLaw_linear M) (calm_linear M) ⟨0, 0, 9⟩ (hsz 0 0) (hsz 0 0) 0
  have hcase : ∀ i a, i < mb.bodies.length → a < mb.dofAt i → (i = 0 ∨ i = 1) ∧ a = 0 := fun i a hi ha => by
    rw [hl] at hi
    rw [hdof i hi] at ha
    omega
  obtain ⟨C, -, key⟩ := C99_disturbed M (pdLaw_smooth M (kp := fun _ _ => 2) (kd := fun _ _ => 3) (goal := [[0], [0]])) calm_smooth (pdLaw_linear M)
    (calm_linear M) ⟨0, 0, 9⟩ 0 10 0 (2 * |g|)
  refine ⟨mb, solve, c, c', C, ht, e1, e1', h, h', fun t htt => (key _ c c' h h' (fun i a hi ha => ?_) (fun i a hi ha => ?_) 0 (2 * |g|) le_rfl
    (by positivity) le_rfl (fun i a hi ha => ?_) (fun s _ i a hi ha => ?_) t (by simpa using htt) 0 0 (by omega) (by rw [hdof 0 two_pos]; exact one_pos)).1⟩
  · obtain ⟨rfl | rfl, rfl⟩ := hcase i a hi ha
    all_goals simp [e1, e2, entry]
  · obtain ⟨rfl | rfl, rfl⟩ := hcase i a hi ha
    all_goals simp [e1', e2', entry]
  · rw [e1, e2, e1', e2']
    simp
  · rw [h'.torque s trivial]
    unfold pdLaw
    rw [MultiBody.entry_ofEntries mb _ hi ha, MultiBody.entry_ofEntries mb _ hi ha]
    dsimp only
    have e0 : entry [[(0 : ℝ)], [0]] i a = 0 ∧ entry [[g], [g]] i a = g := by
      obtain ⟨rfl | rfl, rfl⟩ := hcase i a hi ha
      all_goals simp [entry]
    rw [e0.1, e0.2, show -2 * (entry (c' s).q i a - g) - 3 * entry (c' s).alpha i a - (-2 * (entry (c' s).q i a - 0) - 3 * entry (c' s).alpha i a) =
      2 * g by ring, abs_mul, abs_of_pos two_pos]

end RBDyn
