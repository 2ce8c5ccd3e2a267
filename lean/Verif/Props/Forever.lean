import Verif.Lemmas.EnergyGrowth

/-! Property C90: under torques and forces of linear growth the motions of a robot last for ever. -/

namespace RBDyn
open scoped Mat3

/-- In any bounded time the torques of the law grow at most linearly with the joint positions and velocities. -/
def LinearLaw (mb : MultiBody ℝ) (law : ℝ → List (List ℝ) → List (List ℝ) → List (List ℝ)) : Prop :=
  ∀ T, ∃ c, ∀ t q α b, |t| ≤ T → SizedDof mb q → SizedDof mb α → (∀ i a, |entry q i a| ≤ b ∧ |entry α i a| ≤ b) →
    ∀ i a, |entry (law t q α) i a| ≤ c * (1 + b)

/-- In any bounded time the forces of the environment, seen by the bodies, grow at most linearly with the joint positions and velocities. -/
def LinearForces (mb : MultiBody ℝ) (env : ℝ → List (List ℝ) → List (List ℝ) → List (ForceVec ℝ)) : Prop :=
  ∀ T, ∃ c, ∀ t q α b, |t| ≤ T → SizedDof mb q → SizedDof mb α → (∀ i a, |entry q i a| ≤ b ∧ |entry α i a| ≤ b) →
    ∀ k, k < mb.bodies.length → ((mb.posAt q k).dualMul (((env t q α)[k]?).getD 0)).Small (c * (1 + b))

/-- In any bounded time the forces of the environment, in the frame of the world, are bounded. -/
def BoundedForces (mb : MultiBody ℝ) (env : ℝ → List (List ℝ) → List (List ℝ) → List (ForceVec ℝ)) : Prop :=
  ∀ T, ∃ c, ∀ t q α, |t| ≤ T → SizedDof mb q → SizedDof mb α → ∀ k, k < mb.bodies.length → (((env t q α)[k]?).getD 0).Small c

variable {mb : MultiBody ℝ} {solve : DMat ℝ → List ℝ → List ℝ} {law : ℝ → List (List ℝ) → List (List ℝ) → List (List ℝ)}
  {env : ℝ → List (List ℝ) → List (List ℝ) → List (ForceVec ℝ)} {γ : Vec3 ℝ}

/-! ### The measure of a state -/

/-- Twice the kinetic energy plus the squares of the joint positions. -/
noncomputable def MultiBody.measure (mb : MultiBody ℝ) (w : mb.Space) : ℝ := mb.kin2 (mb.unflat w.2.1) (mb.unflat w.2.2) + ∑ y : mb.Ix, w.2.1 y ^ 2

theorem Machine.measure_nonneg (M : Machine mb solve) (w : mb.Space) : 0 ≤ mb.measure w :=
  add_nonneg (M.kin2_nonneg _ _) (Finset.sum_nonneg fun _ _ => sq_nonneg _)

theorem Machine.measure_diff (M : Machine mb solve) : ContDiff ℝ 1 mb.measure := by
  have hq : DiffDof mb fun w : mb.Space => mb.unflat w.2.1 := .unflat M.wf (contDiff_fst.comp contDiff_snd)
  have ha : DiffDof mb fun w : mb.Space => mb.unflat w.2.2 := .unflat M.wf (contDiff_snd.comp contDiff_snd)
  unfold MultiBody.measure MultiBody.kin2
  refine ContDiff.add (ContDiff.sum fun k _ => ?_) (ContDiff.sum fun y _ => ?_)
  · exact (hq.velAt M.wf M.simple ha k).dot ((hq.velAt M.wf M.simple ha k).inertia _)
  · exact ((contDiff_apply ℝ ℝ y).comp (contDiff_fst.comp contDiff_snd)).pow 2

theorem Machine.sqrt_kin2 (M : Machine mb solve) (w : mb.Space) : √(mb.kin2 (mb.unflat w.2.1) (mb.unflat w.2.2)) ≤ √(mb.measure w) :=
  Real.sqrt_le_sqrt (le_add_of_nonneg_right (Finset.sum_nonneg fun _ _ => sq_nonneg _))

theorem Machine.pos_bound (M : Machine mb solve) (w : mb.Space) (y : mb.Ix) : |w.2.1 y| ≤ √(mb.measure w) := by
  rw [← Real.sqrt_sq_eq_abs]
  refine Real.sqrt_le_sqrt (le_add_of_nonneg_of_le (M.kin2_nonneg _ _) ?_)
  exact Finset.single_le_sum (f := fun y => w.2.1 y ^ 2) (fun _ _ => sq_nonneg _) (Finset.mem_univ y)

/-- All entries of a state are bounded by the root of its measure. -/
theorem Machine.state_bound (M : Machine mb solve) : ∃ D, 0 ≤ D ∧ ∀ w : mb.Space, ∀ i a,
    |entry (mb.unflat w.2.1) i a| ≤ D * √(mb.measure w) ∧ |entry (mb.unflat w.2.2) i a| ≤ D * √(mb.measure w) := by
  obtain ⟨C, hC, h⟩ := M.entry_bound
  refine ⟨1 + C, by positivity, fun w i a => ?_⟩
  have hs := Real.sqrt_nonneg (mb.measure w)
  have hp : 0 ≤ C * √(mb.measure w) := by positivity
  by_cases hc : i < mb.bodies.length ∧ a < mb.dofAt i
  · refine ⟨?_, ?_⟩
    · have := M.pos_bound w ⟨⟨i, hc.1⟩, ⟨a, hc.2⟩⟩
      rw [MultiBody.entry_unflat _ hc.1 hc.2]
      linarith
    · have h1 := h ⟨⟨i, hc.1⟩, ⟨a, hc.2⟩⟩ (mb.unflat w.2.1) (mb.unflat w.2.2) (mb.unflat_sized M.wf _) (mb.unflat_sized M.wf _)
      have h2 := mul_le_mul_of_nonneg_left (M.sqrt_kin2 w) hC
      dsimp only at h1
      linarith
  · rw [entry_beyond M.wf (mb.unflat_sized M.wf _) hc, entry_beyond M.wf (mb.unflat_sized M.wf _) hc, abs_zero]
    have : 0 ≤ (1 + C) * √(mb.measure w) := by positivity
    exact ⟨this, this⟩

/-- States of bounded measure are bounded. -/
theorem Machine.measure_bounds (M : Machine mb solve) (B : ℝ) : ∃ R, ∀ w : mb.Space, mb.measure w ≤ B → ‖w.2‖ ≤ R := by
  obtain ⟨D, hD, h⟩ := M.state_bound
  refine ⟨D * √B, fun w hw => ?_⟩
  have hs : D * √(mb.measure w) ≤ D * √B := mul_le_mul_of_nonneg_left (Real.sqrt_le_sqrt hw) hD
  have h0 : 0 ≤ D * √B := by positivity
  rw [Prod.norm_def]
  refine max_le ((pi_norm_le_iff_of_nonneg h0).2 fun y => ?_) ((pi_norm_le_iff_of_nonneg h0).2 fun y => ?_)
  · have := (h w y.1 y.2).1
    rw [MultiBody.entry_unflat _ y.1.2 y.2.2] at this
    exact this.trans hs
  · have := (h w y.1 y.2).2
    rw [MultiBody.entry_unflat _ y.1.2 y.2.2] at this
    exact this.trans hs

/-- The measure of a state grows at most exponentially. -/
theorem Machine.measure_rate (M : Machine mb solve) (hl : LinearLaw mb law) (he : LinearForces mb env) (γ : Vec3 ℝ) (T : ℝ) :
    ∃ C, ∀ w : mb.Space, |w.1| ≤ T → |fderiv ℝ mb.measure w (flow mb law env γ w)| ≤ C * (1 + mb.measure w) := by
  obtain ⟨D, hD, hst⟩ := M.state_bound
  obtain ⟨V, hV, hvel⟩ := M.vel_bound
  set S : Set mb.Space := {w | |w.1| ≤ T}
  set s : mb.Space → ℝ := fun w => √(mb.measure w)
  have hs0 : ∀ w, 0 ≤ s w := fun w => Real.sqrt_nonneg _
  have hq : ∀ y : mb.Ix, Ord1 S s fun w => w.2.1 y := fun y => ⟨1, zero_le_one, fun w _ => by linarith [M.pos_bound w y, hs0 w]⟩
  have ha : ∀ y : mb.Ix, Ord1 S s fun w => w.2.2 y := fun y => ⟨D, hD, fun w _ => by
    have := (hst w y.1 y.2).2
    rw [MultiBody.entry_unflat _ y.1.2 y.2.2] at this
    refine this.trans (mul_le_mul_of_nonneg_left ?_ hD)
    show s w ≤ _
    linarith⟩
  have grow : ∀ c w, |c| * (1 + D) * (1 + s w) ≥ c * (1 + D * s w) := fun c w => by
    have h1 : c ≤ |c| := le_abs_self c
    have h2 := hs0 w
    have h3 : 0 ≤ 1 + D * s w := by positivity
    have h4 : 1 + D * s w ≤ (1 + D) * (1 + s w) := by nlinarith
    calc |c| * (1 + D) * (1 + s w) = |c| * ((1 + D) * (1 + s w)) := by ring
      _ ≥ |c| * (1 + D * s w) := mul_le_mul_of_nonneg_left h4 (abs_nonneg _)
      _ ≥ c * (1 + D * s w) := mul_le_mul_of_nonneg_right h1 h3
  have ht : ∀ y : mb.Ix, Ord1 S s fun w => entry (law w.1 (mb.unflat w.2.1) (mb.unflat w.2.2)) y.1 y.2 := fun y => by
    obtain ⟨c, hc⟩ := hl T
    exact ⟨|c| * (1 + D), by positivity, fun w hw => (hc w.1 _ _ (D * s w) hw (mb.unflat_sized M.wf _) (mb.unflat_sized M.wf _) (hst w) _ _).trans (grow c w)⟩
  have hf : ∀ k, k < mb.bodies.length → OrdForce S s fun w =>
      (mb.posAt (mb.unflat w.2.1) k).dualMul (((env w.1 (mb.unflat w.2.1) (mb.unflat w.2.2))[k]?).getD 0) := fun k hk => by
    obtain ⟨c, hc⟩ := he T
    exact ⟨|c| * (1 + D), by positivity, fun w hw =>
      (hc w.1 _ _ (D * s w) hw (mb.unflat_sized M.wf _) (mb.unflat_sized M.wf _) (hst w) k hk).mono (grow c w)⟩
  have hv : ∀ k, k < mb.bodies.length → OrdMotion S s fun w => mb.velAt (mb.unflat w.2.1) (mb.unflat w.2.2) k := fun k hk =>
    ⟨V, hV, fun w _ => (hvel ⟨k, hk⟩ _ _).mono (mul_le_mul_of_nonneg_left ((M.sqrt_kin2 w).trans (by show s w ≤ _; linarith)) hV)⟩
  have hg : ∀ k, OrdForce S s fun w => (mb.inertiaAt k).mulMotion ((mb.posAt (mb.unflat w.2.1) k).mulMotion ⟨0, γ⟩) := fun k => by
    obtain ⟨c, hc, hI⟩ := RBInertia.small_mulMotion (mb.inertiaAt k)
    have h3 := Vec3.small_exists γ
    have h4 := h3.nonneg
    refine ⟨c * (3 * (|γ.x| + |γ.y| + |γ.z|)), by positivity, fun w _ => ?_⟩
    have hr := mb.posAt_rigid M.rigid (M.valid (mb.unflat_sized M.wf w.2.1)) k
    refine (hI (3 * (|γ.x| + |γ.y| + |γ.z|)) _ ⟨?_, ?_⟩).mono (le_mul_of_one_le_right (by positivity) (by linarith [hs0 w]))
    · refine IsRot.small hr (b := |γ.x| + |γ.y| + |γ.z|) (v := 0) ?_
      simpa [Vec3.Small] using h4
    · have e : γ - (mb.posAt (mb.unflat w.2.1) k).r.cross 0 = γ := by ext <;> simp
      show ((mb.posAt (mb.unflat w.2.1) k).E *ᵥ (γ - (mb.posAt (mb.unflat w.2.1) k).r.cross 0)).Small _
      rw [e]
      exact IsRot.small hr h3
  have main : Ord2 S s fun w => 2 * (∑ y : mb.Ix, w.2.2 y * entry (law w.1 (mb.unflat w.2.1) (mb.unflat w.2.2)) y.1 y.2 +
        ∑ k ∈ Finset.range mb.bodies.length, (mb.velAt (mb.unflat w.2.1) (mb.unflat w.2.2) k).dot
          ((mb.posAt (mb.unflat w.2.1) k).dualMul (((env w.1 (mb.unflat w.2.1) (mb.unflat w.2.2))[k]?).getD 0)) -
        ∑ k ∈ Finset.range mb.bodies.length, (mb.velAt (mb.unflat w.2.1) (mb.unflat w.2.2) k).dot
          ((mb.inertiaAt k).mulMotion ((mb.posAt (mb.unflat w.2.1) k).mulMotion ⟨0, γ⟩))) + ∑ y : mb.Ix, 2 * (w.2.1 y * w.2.2 y) := by
    refine Ord2.add (Ord2.const_mul (Ord2.sub (Ord2.add (Ord2.sum _ fun y _ => (ha y).mul (ht y)) (Ord2.sum _ fun k hk => ?_))
      (Ord2.sum _ fun k hk => ?_)) 2) (Ord2.sum _ fun y _ => ((hq y).mul (ha y)).const_mul 2)
    · exact (hv k (Finset.mem_range.1 hk)).dot (hf k (Finset.mem_range.1 hk))
    · exact (hv k (Finset.mem_range.1 hk)).dot (hg k)
  obtain ⟨C, -, hC⟩ := main
  refine ⟨C, fun w hw => ?_⟩
  have h1 := hC w hw
  rw [show s w ^ 2 = mb.measure w from Real.sq_sqrt (M.measure_nonneg w)] at h1
  have hx : HasDerivAt (fun u : ℝ => w + u • flow mb law env γ w) (flow mb law env γ w) 0 := by
    simpa using ((hasDerivAt_id (0 : ℝ)).smul_const (flow mb law env γ w)).const_add w
  have h0 : (fun u : ℝ => w + u • flow mb law env γ w) 0 = w := by simp
  have hk := M.kin2_rate h0 hx
  have hp : HasDerivAt (fun u : ℝ => ∑ y : mb.Ix, ((fun u : ℝ => w + u • flow mb law env γ w) u).2.1 y ^ 2) (∑ y : mb.Ix, 2 * (w.2.1 y * w.2.2 y)) 0 := by
    refine HasDerivAt.fun_sum fun y _ => ?_
    have h2 : HasDerivAt (fun u : ℝ => ((fun u : ℝ => w + u • flow mb law env γ w) u).2.1 y) (w.2.2 y) 0 :=
      hasDerivAt_pi.1 (((ContinuousLinearMap.fst ℝ (mb.Ix → ℝ) (mb.Ix → ℝ)).comp
        (ContinuousLinearMap.snd ℝ ℝ ((mb.Ix → ℝ) × (mb.Ix → ℝ)))).hasFDerivAt.comp_hasDerivAt 0 hx) y
    refine (h2.pow 2).congr_deriv ?_
    rw [h0]
    simp
    ring
  have hd := ((M.measure_diff.differentiable one_ne_zero w).hasFDerivAt).comp_hasDerivAt_of_eq (0 : ℝ) hx h0.symm
  rw [hd.unique (hk.add hp)]
  exact h1

/-! ### Motions for all times -/

/-- C90: when the control law and the environment are continuously differentiable and, in any bounded time, grow at most linearly, there is from all
joint positions and velocities and at every time a motion of the robot that lasts for ever, in the past and in the future. -/
theorem C90_forever (M : Machine mb solve) (hl : SmoothLaw mb law) (he : SmoothForces mb env) (hll : LinearLaw mb law) (hle : LinearForces mb env)
    (γ : Vec3 ℝ) {q₀ α₀ : List (List ℝ)} (hq : SizedDof mb q₀) (ha : SizedDof mb α₀) (t₀ : ℝ) :
    ∃ mbc : ℝ → MBC ℝ, (mbc t₀).q = q₀ ∧ (mbc t₀).alpha = α₀ ∧ Motion mb solve law env γ Set.univ mbc := by
  obtain ⟨x, hx0, hx⟩ := solution_global (flow_diff M hl he γ) (fun _ => rfl) M.measure_diff M.measure_nonneg M.measure_bounds
    (M.measure_rate hll hle γ) (t₀, mb.flat q₀, mb.flat α₀)
  dsimp only at hx0
  obtain ⟨mbc, h1, h2⟩ := Motion.of_flow M hl he (I := Set.univ) (fun t _ => hx t) fun t _ =>
    flow_time isOpen_univ convex_univ (fun t _ => hx t) (t₀ := t₀) trivial (by rw [hx0]) trivial
  refine ⟨mbc, ?_, ?_, h2⟩
  · rw [(h1 t₀).1, hx0, MultiBody.unflat_flat M.wf hq]
  · rw [(h1 t₀).2, hx0, MultiBody.unflat_flat M.wf ha]

/-! ### Bounded forces -/

theorem Vec3.small_zero {b : ℝ} (h : 0 ≤ b) : (0 : Vec3 ℝ).Small b := by simpa [Vec3.Small] using h

theorem IsRot.tr_small {E : Mat3 ℝ} (h : IsRot E) {b : ℝ} {v : Vec3 ℝ} (hv : v.Small b) : (E.tr *ᵥ v).Small (3 * b) := IsRot.small h.tr hv

/-- A joint moves its body at most linearly in its position. -/
theorem Machine.pose_reach (M : Machine mb solve) {i : Nat} (hi : i < mb.bodies.length) : ∃ c, 0 ≤ c ∧ ∀ q b, SizedDof mb q → (∀ a, |entry q i a| ≤ b) →
    (mb.poseAt q i).r.Small (c * (1 + b)) := by
  obtain ⟨j, hj, -⟩ := M.wf.joint_get hi
  have hm := List.mem_of_getElem? hj
  obtain ⟨t, ax, f, n, hv, hjj⟩ := (M.rigid.joints j hm).exists_mk
  have hpose : ∀ x, j.pose x = (Joint.mk' t ax f n).pose x := fun x => by
    rcases hjj with rfl | ⟨mn, m, o, rfl⟩ <;> rfl
  have hjt : j.type = t := by
    rcases hjj with rfl | ⟨mn, m, o, rfl⟩ <;> rfl
  have hjd : mb.dofAt i = Joint.nDof t := by
    have : mb.dofAt i = j.dof := by simp [MultiBody.dofAt, hj]
    rw [this]
    rcases hjj with rfl | ⟨mn, m, o, rfl⟩ <;> rfl
  have hposeAt : ∀ q, SizedDof mb q → mb.poseAt q i = ((Joint.mk' t ax f n).pose ((q[i]?).getD [])).toOption.getD 1 := fun q hq => by
    have hl : i < q.length := by rw [hq.length, M.wf.njoints]; exact hi
    unfold MultiBody.poseAt
    rw [hj, List.getElem?_eq_getElem hl]
    exact congrArg (fun r => Option.getD (Except.toOption r) 1) (hpose _)
  have hlen : ∀ q, SizedDof mb q → ((q[i]?).getD []).length = Joint.nDof t := fun q hq => (hq.getD_length M.wf hi).trans hjd
  have hent : ∀ (q : List (List ℝ)) a, entry q i a = ((q[i]?).getD []).getD a 0 := fun _ _ => rfl
  have hax := Vec3.small_exists (Joint.sgn (K := ℝ) f • ax)
  set d := |(Joint.sgn (K := ℝ) f • ax).x| + |(Joint.sgn (K := ℝ) f • ax).y| + |(Joint.sgn (K := ℝ) f • ax).z|
  have hd : 0 ≤ d := hax.nonneg
  have hsm : ∀ x b : ℝ, |x| ≤ b → (x • Joint.sgn (K := ℝ) f • ax).Small (d * (1 + b)) := fun x b hx => by
    refine (hax.smul x).mono ?_
    nlinarith [abs_nonneg x]
  have hty := M.simple j hm
  rw [hjt] at hty
  refine ⟨d, hd, fun q b hq hb => ?_⟩
  have hb0 : 0 ≤ b := (abs_nonneg _).trans (hb 0)
  have hz : (0 : Vec3 ℝ).Small (d * (1 + b)) := Vec3.small_zero (by positivity)
  rw [hposeAt q hq]
  rcases hty with rfl | rfl | rfl | rfl
  · obtain ⟨x, hx⟩ := single_cases (hlen q hq)
    rw [hx, Joint.pose_rev]
    exact hz
  · obtain ⟨x, hx⟩ := single_cases (hlen q hq)
    have h0 := hb 0
    rw [hent, hx] at h0
    rw [hx, Joint.pose_prism]
    exact hsm x b h0
  · obtain ⟨x, y, hx⟩ := List.length_eq_two.1 (hlen q hq)
    have h0 := hb 1
    rw [hent, hx] at h0
    rw [hx, Joint.pose_cylindrical]
    exact hsm y b h0
  · rw [List.length_eq_zero_iff.1 (hlen q hq), Joint.pose_fixed]
    exact hz

/-- The reach of a robot grows at most linearly with its joint positions. -/
theorem Machine.reach (M : Machine mb solve) : ∀ i, i < mb.bodies.length → ∃ c, 0 ≤ c ∧ ∀ q b, SizedDof mb q → (∀ i a, |entry q i a| ≤ b) →
    (mb.posAt q i).r.Small (c * (1 + b)) := by
  have hpts : ∀ i, i < mb.bodies.length → ∃ c, 0 ≤ c ∧ ∀ q b, SizedDof mb q → (∀ i a, |entry q i a| ≤ b) → (mb.ptsAt q i).r.Small (c * (1 + b)) := by
    intro i hi
    obtain ⟨c, hc, h⟩ := M.pose_reach hi
    have hX : IsRigid (mb.XtAt i) := by
      unfold MultiBody.XtAt
      cases h : mb.Xt[i]? with
      | none => exact IsRigid.one
      | some X => exact M.rigid.Xt _ (List.mem_of_getElem? h)
    have hr := Vec3.small_exists (mb.XtAt i).r
    set d := |(mb.XtAt i).r.x| + |(mb.XtAt i).r.y| + |(mb.XtAt i).r.z|
    have hd : 0 ≤ d := hr.nonneg
    refine ⟨d + 3 * c, by positivity, fun q b hq hb => ?_⟩
    have hb0 : 0 ≤ b := (abs_nonneg _).trans (hb 0 0)
    unfold MultiBody.ptsAt
    rw [PTransform.mul_r]
    refine (hr.add (IsRot.tr_small hX (h q b hq (hb i)))).mono ?_
    nlinarith
  intro i
  induction i using Nat.strong_induction_on with
  | _ i ih =>
    intro hi
    obtain ⟨c, hc, h⟩ := hpts i hi
    cases hp : mb.par i with
    | none => exact ⟨c, hc, fun q b hq hb => by rw [M.wf.posAt_none q hp]; exact h q b hq hb⟩
    | some p =>
      have hpl := M.wf.par_lt _ _ hp
      obtain ⟨d, hd, h'⟩ := ih p hpl (by omega)
      refine ⟨d + 3 * c, by positivity, fun q b hq hb => ?_⟩
      rw [M.wf.posAt_some q hp, PTransform.mul_r]
      refine ((h' q b hq hb).add (IsRot.tr_small (mb.posAt_rigid M.rigid (M.valid hq) p) (h q b hq hb))).mono ?_
      linarith

/-- C90: in any bounded time bounded forces in the frame of the world have at most linear growth, seen by the bodies. -/
theorem C90_bounded_forces (M : Machine mb solve) (h : BoundedForces mb env) : LinearForces mb env := by
  intro T
  obtain ⟨c, hc⟩ := h T
  have key : ∃ R, 0 ≤ R ∧ ∀ k : Fin mb.bodies.length, ∀ q b, SizedDof mb q → (∀ i a, |entry q i a| ≤ b) → (mb.posAt q k).r.Small (R * (1 + b)) := by
    refine exists_bound (fun k b c h hbc q e hq he => (h q e hq he).mono (mul_le_mul_of_nonneg_right hbc ?_)) fun k => ?_
    · linarith [(abs_nonneg _).trans (he 0 0)]
    · obtain ⟨c, -, h⟩ := M.reach k k.2
      exact ⟨c, h⟩
  obtain ⟨R, hR, hr⟩ := key
  refine ⟨3 * (|c| + 2 * (R * |c|)), fun t q α b ht hq ha hb k hk => ?_⟩
  have hb0 : 0 ≤ b := (abs_nonneg _).trans (hb 0 0).1
  have hf := (hc t q α ht hq ha k hk).mono (le_abs_self c)
  have hX := mb.posAt_rigid M.rigid (M.valid hq) k
  have h1 := IsRot.small hX (hf.1.sub ((hr ⟨k, hk⟩ q b hq fun i a => (hb i a).1).cross hf.2))
  have h2 := IsRot.small hX hf.2
  have hcc := abs_nonneg c
  have hRc : 0 ≤ R * |c| := by positivity
  exact ⟨h1.mono (by nlinarith), h2.mono (by nlinarith)⟩

/-! ### Simulations of any length -/

/-- C90: under these conditions the simulator follows one motion over any time: from every state there is one motion from time 0 on, and simulations
of any length converge to it when the period goes to zero. -/
theorem C90_simulation (M : Machine mb solve) (hl : SmoothLaw mb law) (he : SmoothForces mb env) (hll : LinearLaw mb law) (hle : LinearForces mb env)
    (γ : Vec3 ℝ) {q₀ α₀ : List (List ℝ)} (hq : SizedDof mb q₀) (ha : SizedDof mb α₀) :
    ∃ mbc : ℝ → MBC ℝ, Motion mb solve law env γ Set.univ mbc ∧
      (∀ mbc', Motion mb solve law env γ (Set.Ici 0) mbc' → (mbc' 0).q = q₀ → (mbc' 0).alpha = α₀ →
        ∀ t, 0 ≤ t → (mbc' t).q = (mbc t).q ∧ (mbc' t).alpha = (mbc t).alpha) ∧
      ∀ t ε, 0 < t → 0 < ε → ∃ n₀ : ℕ, ∀ (n : ℕ) (prec : ℝ) (s₀ : FD ℝ × MBC ℝ), n₀ ≤ n → 0 < prec → SimState mb s₀ → s₀.2.gravity = γ →
        s₀.2.q = q₀ → s₀.2.alpha = α₀ → ∃ N s',
          (∀ fuel, N ≤ fuel → simulate fuel mb solve (sampledForces env (t / n)) (sampled law (t / n)) (t / n) prec n s₀ = .ok s') ∧
          ∀ i a, i < mb.bodies.length → a < mb.dofAt i → |entry s'.2.q i a - entry (mbc t).q i a| < ε ∧
            |entry s'.2.alpha i a - entry (mbc t).alpha i a| < ε := by
  obtain ⟨mbc, h1, h2, h⟩ := C90_forever M hl he hll hle γ hq ha 0
  refine ⟨mbc, h, fun mbc' h' e1 e2 t ht => ?_, fun t ε ht hε => ?_⟩
  · have := C88_unique M hl he (a := 0) (b := t) (t₀ := 0) ⟨le_rfl, ht⟩ (h'.mono fun s hs => hs.1) (h.mono (Set.subset_univ _)) (by rw [e1, h1])
      (by rw [e2, h2]) (t := t) ⟨ht, le_rfl⟩
    exact ⟨this.1, this.2.1⟩
  · obtain ⟨n₀, key⟩ := C88_limit M hl he (h.mono (Set.subset_univ (Set.Icc 0 t))) ht le_rfl hε
    exact ⟨n₀, fun n prec s₀ hn hp S hg e1 e2 => key n prec s₀ hn hp S hg (by rw [e1, h1]) (by rw [e2, h2])⟩

/-! ### A law of quadratic growth -/

/-- The torques that accelerate every joint with the square of its velocity. -/
noncomputable def squareLaw (mb : MultiBody ℝ) (env : ℝ → List (List ℝ) → List (List ℝ) → List (ForceVec ℝ)) (γ : Vec3 ℝ) (t : ℝ) (q α : List (List ℝ)) :
    List (List ℝ) :=
  mb.ofEntries fun i a => (mb.dofSum fun j b => mb.massAt q i a j b * entry α j b ^ 2) + mb.biasAt q α ⟨0, γ⟩ (fun k => ((env t q α)[k]?).getD 0) i a

theorem squareLaw_smooth (M : Machine mb solve) (he : SmoothForces mb env) (γ : Vec3 ℝ) : SmoothLaw mb (squareLaw mb env γ) := by
  have hq : DiffDof mb fun w : mb.Space => mb.unflat w.2.1 := .unflat M.wf (contDiff_fst.comp contDiff_snd)
  have ha : DiffDof mb fun w : mb.Space => mb.unflat w.2.2 := .unflat M.wf (contDiff_snd.comp contDiff_snd)
  refine ⟨fun w => mb.ofEntries_sized M.wf _, fun i a hi hal => ?_⟩
  unfold squareLaw
  simp only [mb.entry_ofEntries _ hi hal, MultiBody.dofSum_ix]
  refine ContDiff.add (ContDiff.sum fun y _ => ?_) ?_
  · exact (hq.massAt M.wf M.simple _ _ _ _).mul ((ha.entry M.wf _ _).pow 2)
  · exact hq.biasAt M.wf M.simple ha _ he.smooth i a

theorem squareLaw_acc (M : Machine mb solve) (γ : Vec3 ℝ) (w : mb.Space) : accelAt mb (squareLaw mb env γ) env γ w = fun y => w.2.2 y ^ 2 := by
  have h := accOf_iff M.wf M.rigid (M.valid (mb.unflat_sized M.wf w.2.1)) M.inertia M.subspace (mb.unflat w.2.2)
    (squareLaw mb env γ w.1 (mb.unflat w.2.1) (mb.unflat w.2.2)) ⟨0, γ⟩
    (fun k => ((env w.1 (mb.unflat w.2.1) (mb.unflat w.2.2))[k]?).getD 0) (mb.unflat fun y => w.2.2 y ^ 2)
  unfold accelAt
  rw [← h.1, MultiBody.flat_unflat]
  intro i a hi ha
  unfold squareLaw
  rw [mb.entry_ofEntries _ hi ha, M.wf.torque_split]
  congr 1
  refine dofSum_congr fun j b hj hb => ?_
  rw [MultiBody.entry_unflat _ hj hb, MultiBody.entry_unflat _ hj hb]

/-- C90: without the bound on the growth of the torques it does not hold: for every robot with at least one moving joint, every environment and every gravity
there is a continuously differentiable control law under which no motion that starts with unit joint velocities lasts for one second. -/
theorem C90_blowup (M : Machine mb solve) (he : SmoothForces mb env) (γ : Vec3 ℝ) {i a : Nat} (hi : i < mb.bodies.length) (ha : a < mb.dofAt i) :
    ∃ law, SmoothLaw mb law ∧ ∀ mbc : ℝ → MBC ℝ, entry (mbc 0).alpha i a = 1 → ¬ Motion mb solve law env γ (Set.Icc 0 1) mbc := by
  refine ⟨squareLaw mb env γ, squareLaw_smooth M he γ, fun mbc h0 h => ?_⟩
  set y : mb.Ix := ⟨⟨i, hi⟩, ⟨a, ha⟩⟩
  set v : ℝ → ℝ := fun s => entry (mbc s).alpha i a
  have hv : ∀ t ∈ Set.Icc (0 : ℝ) 1, HasDerivAt v (v t ^ 2) t := fun t ht => by
    have h1 := h.flow M ht
    have h2 := hasDerivAt_pi.1 (((ContinuousLinearMap.snd ℝ (mb.Ix → ℝ) (mb.Ix → ℝ)).comp
      (ContinuousLinearMap.snd ℝ ℝ ((mb.Ix → ℝ) × (mb.Ix → ℝ)))).hasFDerivAt.comp_hasDerivAt t h1) y
    have e : (flow mb (squareLaw mb env γ) env γ ((mbc t).coords mb t)).2.2 y = v t ^ 2 := by
      unfold flow
      rw [squareLaw_acc M]
      rfl
    exact h2.congr_deriv e
  have hc : ContinuousOn v (Set.Icc 0 1) := fun t ht => (hv t ht).continuousAt.continuousWithinAt
  have hmono : MonotoneOn v (Set.Icc 0 1) := by
    refine monotoneOn_of_hasDerivWithinAt_nonneg (f' := fun t => v t ^ 2) (convex_Icc 0 1) hc (fun t ht => ?_) (fun t _ => sq_nonneg _)
    exact (hv t (interior_subset ht)).hasDerivWithinAt
  have hge : ∀ t ∈ Set.Icc (0 : ℝ) 1, 1 ≤ v t := fun t ht => by
    have h1 : v 0 ≤ v t := hmono ⟨le_rfl, zero_le_one⟩ ht ht.1
    have h2 : v 0 = 1 := h0
    linarith
  have hinv : ∀ t ∈ Set.Icc (0 : ℝ) 1, HasDerivAt (fun s => (v s)⁻¹ + s) 0 t := fun t ht => by
    have hne : v t ≠ 0 := by linarith [hge t ht]
    refine (((hv t ht).inv hne).add (hasDerivAt_id t)).congr_deriv ?_
    field_simp
    ring
  have hconst := constant_of_has_deriv_right_zero (f := fun s => (v s)⁻¹ + s) (a := 0) (b := 1)
    (fun t ht => (hinv t ht).continuousAt.continuousWithinAt) (fun t ht => (hinv t ⟨ht.1, ht.2.le⟩).hasDerivWithinAt) 1 ⟨zero_le_one, le_rfl⟩
  have h1 := hge 1 ⟨zero_le_one, le_rfl⟩
  have h2 : v 0 = 1 := h0
  simp only [h2] at hconst
  have h3 : 0 < (v 1)⁻¹ := by positivity
  linarith

/-! ### Examples -/

theorem springs_linear (wf : mb.WF) : LinearLaw mb (springs mb) := by
  intro T
  refine ⟨3 + T ^ 2, fun t q α b ht hq ha hb i a => ?_⟩
  have hb0 : 0 ≤ b := (abs_nonneg _).trans (hb 0 0).1
  have hT := sq_le_sq' (by linarith [(abs_le.1 ht).1]) (abs_le.1 ht).2
  have h0 : 0 ≤ (3 + T ^ 2) * (1 + b) := by positivity
  by_cases hc : i < mb.bodies.length ∧ a < mb.dofAt i
  · unfold springs
    rw [mb.entry_ofEntries _ hc.1 hc.2]
    obtain ⟨h1, h2⟩ := abs_le.1 (hb i a).1
    obtain ⟨h3, h4⟩ := abs_le.1 (hb i a).2
    have h5 : 0 ≤ T ^ 2 * b := by positivity
    exact abs_le.2 ⟨by nlinarith [sq_nonneg t], by nlinarith [sq_nonneg t]⟩
  · unfold springs
    rw [entry_beyond wf (mb.ofEntries_sized wf _) hc, abs_zero]
    exact h0

/-- A force on every body that swings with the first joint position and grows with time. -/
noncomputable def breeze (mb : MultiBody ℝ) (t : ℝ) (q _ : List (List ℝ)) : List (ForceVec ℝ) :=
  List.replicate mb.bodies.length ⟨0, ⟨1, Real.sin (entry q 0 0), t⟩⟩

theorem breeze_smooth (wf : mb.WF) : SmoothForces mb (breeze mb) := by
  refine ⟨fun t q α => by simp [breeze], fun k hk => ?_⟩
  have e : ∀ w : mb.Space, ((breeze mb w.1 (mb.unflat w.2.1) (mb.unflat w.2.2))[k]?).getD 0 =
      ⟨0, ⟨1, Real.sin (entry (mb.unflat w.2.1) 0 0), w.1⟩⟩ := fun w => by
    simp [breeze, hk]
  simp only [e]
  exact ⟨.const _, contDiff_const, Real.contDiff_sin.comp ((DiffDof.unflat wf (contDiff_fst.comp contDiff_snd)).entry wf 0 0), contDiff_fst⟩

theorem breeze_bounded : BoundedForces mb (breeze mb) := by
  intro T
  refine ⟨1 + T, fun t q α ht _ _ k hk => ?_⟩
  have hT : 0 ≤ T := (abs_nonneg _).trans ht
  have e : ((breeze mb t q α)[k]?).getD 0 = ⟨0, ⟨1, Real.sin (entry q 0 0), t⟩⟩ := by simp [breeze, hk]
  rw [e]
  refine ⟨Vec3.small_zero (by linarith), ?_, ?_, ?_⟩
  · rw [abs_one]; linarith
  · exact (Real.abs_sin_le_one _).trans (by linarith)
  · exact ht.trans (by linarith)

/-- With springs, dampers, a drive and a breeze the motion of a robot with a prismatic and a revolute joint lasts for ever; with another control law no
motion from the same state does. -/
example : ∃ (mb : MultiBody ℝ) (solve : DMat ℝ → List ℝ → List ℝ), mb.joints.map (·.type) = [.Prism, .Rev] ∧
    (∃ mbc : ℝ → MBC ℝ, (mbc 5).q = [[2], [1]] ∧ (mbc 5).alpha = [[1], [3]] ∧ Motion mb solve (springs mb) (breeze mb) ⟨0, 0, 9⟩ Set.univ mbc) ∧
    ∃ law, SmoothLaw mb law ∧ ∀ mbc : ℝ → MBC ℝ, (mbc 0).q = [[2], [1]] → (mbc 0).alpha = [[1], [3]] →
      ¬ Motion mb solve law (breeze mb) ⟨0, 0, 9⟩ (Set.Icc 0 1) mbc := by
  obtain ⟨mb, solve, c, M, ht, hcq, -, hc⟩ := Sample.machine
  have hz : ∀ x y : ℝ, SizedDof mb [[x], [y]] := fun x y => by
    have := M.sizedQ.1 (hc.sized 0 trivial).q
    rw [hcq] at this
    unfold SizedDof at this ⊢
    rw [← this]
    rfl
  have hlj : mb.joints.length = 2 := by have := congrArg List.length ht; simpa using this
  have hb : 0 < mb.bodies.length := by rw [← M.wf.njoints, hlj]; decide
  refine ⟨mb, solve, ht, C90_forever M (springs_smooth M.wf) (breeze_smooth M.wf) (springs_linear M.wf) (C90_bounded_forces M breeze_bounded) _
    (hz 2 1) (hz 1 3) 5, ?_⟩
  obtain ⟨law, h1, h2⟩ := C90_blowup M (breeze_smooth M.wf) ⟨0, 0, 9⟩ hb (a := 0) (by
    have := (hz 2 1).getD_length M.wf hb
    rw [← this]
    simp)
  exact ⟨law, h1, fun mbc _ e => h2 mbc (by rw [e]; rfl)⟩

end RBDyn
