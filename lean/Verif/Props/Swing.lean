import Verif.Props.Energy
import Verif.Props.AllForever
import Verif.Props.Stable
import Verif.Props.Tracking

/-! Property C96: without dampers a robot that stops turns back the way it came, and one that stops twice swings for ever; with dampers it never returns to a state. -/

namespace RBDyn
open scoped Mat3 Topology
open Filter

variable {mb : MultiBody ℝ} {solve : DMat ℝ → List ℝ → List ℝ} {law : ℝ → List (List ℝ) → List (List ℝ) → List (List ℝ)}
  {env : ℝ → List (List ℝ) → List (List ℝ) → List (ForceVec ℝ)} {γ : Vec3 ℝ} {mbc : ℝ → MBC ℝ}

/-- The law depends neither on time nor on the direction of the velocities. -/
def Steady {V : Type} (law : ℝ → List (List ℝ) → List (List ℝ) → V) : Prop := ∀ t t' q α, law t q (negAll α) = law t' q α

theorem negAll_negAll (α : List (List ℝ)) : negAll (negAll α) = α := by
  unfold negAll
  simp

theorem Steady.eq {V : Type} {law : ℝ → List (List ℝ) → List (List ℝ) → V} (h : Steady law) (t t' : ℝ) (q α : List (List ℝ)) : law t q α = law t' q α :=
  (h t' t q α).symm.trans (h t' t' q α)

/-- A motion that begins at another time. -/
theorem Motion.shift (h : Motion mb solve law env γ Set.univ mbc) (c : ℝ) :
    Motion mb solve (fun t => law (t + c)) (fun t => env (t + c)) γ Set.univ fun t => mbc (t + c) := by
  have key : ∀ {q : ℝ → List ℝ} {qd : List ℝ} {t : ℝ}, HasDerivList q qd (t + c) → HasDerivList (fun s => q (s + c)) qd t := fun h =>
    ⟨fun s => h.1 _, fun i => (h.2 i).comp_add_const _ c⟩
  exact ⟨fun t _ => h.sized _ trivial, fun t _ => h.ready _ trivial,
    fun t _ => ⟨fun s => (h.moves (t + c) trivial).valid _, (h.moves (t + c) trivial).sized, fun i j e => key ((h.moves (t + c) trivial).rate i j e)⟩,
    fun t _ i hi => key (h.rate (t + c) trivial i hi), fun t _ => h.gravity _ trivial, fun t _ => h.torque _ trivial, fun t _ => h.force _ trivial,
    fun t _ => h.dynamics _ trivial⟩

/-- C96: a motion run backwards is a motion, under the laws run backwards. -/
theorem C96_backwards (R : Robot mb solve) (h : Motion mb solve law env γ Set.univ mbc) :
    Motion mb solve (fun t q α => law (-t) q (negAll α)) (fun t q α => env (-t) q (negAll α)) γ Set.univ fun t => (mbc (-t)).backwards := by
  obtain ⟨fd, -, hfit⟩ := FD.mk'_fits R.wf (⟨⟨0, 0, fun _ _ => 0⟩, [], [], [], [], [], [], []⟩ : FD ℝ)
  have hs : Simulated mb fd solve mbc := ⟨fun t => h.sized t trivial, fun t => h.ready t trivial, fun t => h.moves t trivial, fun t => h.rate t trivial,
    fun t => (R.plant le_rfl one_pos).exact hfit ((h.moves t trivial).valid t) (h.ready t trivial).toPosReady, fun t => by
      obtain ⟨fd₀, fd', m, hf, e, hm⟩ := h.dynamics t trivial
      have ac := fun {fd : FD ℝ} (hf : fd.Fits mb) => R.acc (h.sized t trivial) ((h.moves t trivial).valid t) (h.ready t trivial) (h.gravity t trivial)
        (h.torque t trivial) (h.force t trivial) hf
      obtain ⟨fd₁, r, e1, s1, h1⟩ := ac hf
      obtain ⟨fd₂, r', e2, s2, h2⟩ := ac hfit
      rw [e] at e1
      refine ⟨fd₂, _, e2, ?_⟩
      rw [← hm, (Prod.mk.inj (Except.ok.inj e1)).2]
      exact flat_inj R.wf s2 s1 (h2.trans h1.symm)⟩
  have hb := C82_backwards R.wf R.rigid hfit R.inertia R.subspace hs
  refine ⟨fun t _ => hb.sized t, fun t _ => hb.ready t, fun t _ => hb.moves t, fun t _ => hb.rate t, fun t _ => h.gravity (-t) trivial, fun t _ => ?_,
    fun t _ => ?_, fun t _ => ?_⟩
  · show (mbc (-t)).jointTorque = law (-t) (mbc (-t)).q (negAll (negAll (mbc (-t)).alpha))
    rw [negAll_negAll]
    exact h.torque (-t) trivial
  · show (mbc (-t)).force = env (-t) (mbc (-t)).q (negAll (negAll (mbc (-t)).alpha))
    rw [negAll_negAll]
    exact h.force (-t) trivial
  · obtain ⟨fd', m, e, hm⟩ := hb.dynamics t
    exact ⟨fd, fd', m, hfit, e, hm⟩

/-- C96: a robot that is at rest at one time came the way it goes on: without dampers it swings back. -/
theorem C96_turns (R : Robot mb solve) (hl : FullLaw mb law) (he : FullForces mb env) (sl : Steady law) (se : Steady env)
    (h : Motion mb solve law env γ Set.univ mbc) {t₀ : ℝ} (h0 : ∀ i a, i < mb.bodies.length → a < mb.dofAt i → entry (mbc t₀).alpha i a = 0) (s : ℝ) :
    (mbc (t₀ + s)).q = (mbc (t₀ - s)).q ∧ (mbc (t₀ + s)).alpha = negAll (mbc (t₀ - s)).alpha ∧ (mbc (t₀ + s)).bodyPosW = (mbc (t₀ - s)).bodyPosW ∧
      (mbc (t₀ + s)).alphaD = (mbc (t₀ - s)).alphaD := by
  have h1 : Motion mb solve law env γ Set.univ fun t => (mbc (-t + 2 * t₀)).backwards := by
    have := C96_backwards R (h.shift (2 * t₀))
    have e1 : (fun (t : ℝ) q α => law (-t + 2 * t₀) q (negAll α)) = law := by funext t q α; exact sl _ _ _ _
    have e2 : (fun (t : ℝ) q α => env (-t + 2 * t₀) q (negAll α)) = env := by funext t q α; exact se _ _ _ _
    rw [e1, e2] at this
    exact this
  have e0 : -t₀ + 2 * t₀ = t₀ := by ring
  have ea : (mbc t₀).alpha = negAll (mbc t₀).alpha := by
    have hsz := (h.sized t₀ trivial).alpha
    refine SizedDof.ext_entry R.wf hsz hsz.negAll fun i a hi ha => ?_
    rw [h0 i a hi ha]
    have := h0 i a hi ha
    unfold entry negAll at *
    rw [List.getElem?_map]
    cases e : (mbc t₀).alpha[i]? with
    | none => simp
    | some l =>
      rw [e, Option.getD_some, List.getD_eq_getElem?_getD] at this
      rw [Option.map_some, Option.getD_some, List.getD_eq_getElem?_getD, List.getElem?_map]
      cases e' : l[a]? with
      | none => simp
      | some x =>
        rw [e', Option.getD_some] at this
        simp [this]
  have := C91_unique R hl he (a := min t₀ (t₀ + s)) (b := max t₀ (t₀ + s)) (t₀ := t₀) ⟨min_le_left _ _, le_max_left _ _⟩ (h.mono (Set.subset_univ _))
    (h1.mono (Set.subset_univ _)) (by rw [e0]; rfl) (by rw [e0]; exact ea) (t := t₀ + s) ⟨min_le_right _ _, le_max_right _ _⟩
  have e3 : -(t₀ + s) + 2 * t₀ = t₀ - s := by ring
  rw [e3] at this
  exact ⟨this.1, this.2.1, this.2.2.1, this.2.2.2.2⟩

/-- C96: a robot that is at rest at two times repeats its motion for ever. -/
theorem C96_periodic (R : Robot mb solve) (hl : FullLaw mb law) (he : FullForces mb env) (sl : Steady law) (se : Steady env)
    (h : Motion mb solve law env γ Set.univ mbc) {t₀ t₁ : ℝ} (h0 : ∀ i a, i < mb.bodies.length → a < mb.dofAt i → entry (mbc t₀).alpha i a = 0)
    (h1 : ∀ i a, i < mb.bodies.length → a < mb.dofAt i → entry (mbc t₁).alpha i a = 0) (t : ℝ) :
    (mbc (t + 2 * (t₁ - t₀))).q = (mbc t).q ∧ (mbc (t + 2 * (t₁ - t₀))).alpha = (mbc t).alpha := by
  have k0 := C96_turns R hl he sl se h h0 (t₀ - t)
  have k1 := C96_turns R hl he sl se h h1 (t₁ + t - 2 * t₀)
  have e1 : t₀ + (t₀ - t) = 2 * t₀ - t := by ring
  have e2 : t₀ - (t₀ - t) = t := by ring
  have e3 : t₁ + (t₁ + t - 2 * t₀) = t + 2 * (t₁ - t₀) := by ring
  have e4 : t₁ - (t₁ + t - 2 * t₀) = 2 * t₀ - t := by ring
  rw [e1, e2] at k0
  rw [e3, e4] at k1
  exact ⟨k1.1.trans k0.1, by rw [k1.2.1, k0.2.1, negAll_negAll]⟩

/-- C96: with dampers in all joints a robot that moves never returns to the state it was in. -/
theorem C96_damped {kp kd : Nat → Nat → ℝ} {goal : List (List ℝ)} (M : Machine mb solve) (hd : ∀ i a, i < mb.bodies.length → a < mb.dofAt i → 0 < kd i a)
    {t₀ t₁ : ℝ} (hlt : t₀ < t₁) (h : Motion mb solve (pdLaw mb kp kd goal) (calm mb) γ (Set.Icc t₀ t₁) mbc) {t : ℝ} (ht : t ∈ Set.Icc t₀ t₁) {i a : Nat}
    (hi : i < mb.bodies.length) (ha' : a < mb.dofAt i) (hne : entry (mbc t).alpha i a ≠ 0) :
    ¬ ((mbc t₁).q = (mbc t₀).q ∧ (mbc t₁).alpha = (mbc t₀).alpha) := by
  rintro ⟨hq, ha⟩
  refine hne ?_
  set x := fun s => (mbc s).coords mb s with hx
  set V := fun s => mb.kin2 (mb.unflat (x s).2.1) (mb.unflat (x s).2.2) + mb.potential2 γ kp goal (x s).2.1 with hV
  have hr : ∀ s ∈ Set.Icc t₀ t₁, HasDerivAt V (-∑ y : mb.Ix, 2 * kd y.1 y.2 * (x s).2.2 y ^ 2) s := fun s hs => weightEnergy_rate M (h.flow M hs)
  have hpos : ∀ s (y : mb.Ix), 0 ≤ 2 * kd y.1 y.2 * (x s).2.2 y ^ 2 := fun s y =>
    mul_nonneg (mul_nonneg two_pos.le (hd _ _ y.1.2 y.2.2).le) (sq_nonneg _)
  have hanti : AntitoneOn V (Set.Icc t₀ t₁) := antitoneOn_of_deriv_nonpos (convex_Icc _ _)
    (fun s hs => (hr s hs).continuousAt.continuousWithinAt) (fun s hs => (hr s (interior_subset hs)).differentiableAt.differentiableWithinAt)
    fun s hs => by
      rw [(hr s (interior_subset hs)).deriv]
      exact neg_nonpos.2 (Finset.sum_nonneg fun y _ => hpos s y)
  have hle : t₀ ≤ t₁ := hlt.le
  have e0 : V t₁ = V t₀ := by
    simp only [hV, hx, MBC.coords, hq, ha]
  have hconst : ∀ s ∈ Set.Icc t₀ t₁, V s = V t₀ := fun s hs =>
    le_antisymm (hanti ⟨le_rfl, hle⟩ hs hs.1) (e0 ▸ hanti hs ⟨hle, le_rfl⟩ hs.2)
  have hz : HasDerivWithinAt V 0 (Set.Icc t₀ t₁) t := (hasDerivWithinAt_const t (Set.Icc t₀ t₁) (V t₀)).congr hconst (hconst t ht)
  have hsum := (uniqueDiffOn_Icc hlt t ht).eq_deriv _ (hr t ht).hasDerivWithinAt hz
  rw [neg_eq_zero, Finset.sum_eq_zero_iff_of_nonneg fun y _ => hpos t y] at hsum
  have := hsum ⟨⟨i, hi⟩, ⟨a, ha'⟩⟩ (Finset.mem_univ _)
  have h2 : 2 * kd i a ≠ 0 := (mul_pos two_pos (hd i a hi ha')).ne'
  exact pow_eq_zero_iff two_ne_zero |>.1 ((mul_eq_zero.1 this).resolve_left h2)

/-! ### Examples -/

/-- A robot with a sliding and a turning joint that is drawn to zero and not damped stops at the times 0 and π and swings with period 2 π. -/
example (q₀ q₁ : ℝ) : ∃ (mb : MultiBody ℝ) (solve : DMat ℝ → List ℝ → List ℝ) (mbc : ℝ → MBC ℝ), mb.joints.map (·.type) = [.Prism, .Rev] ∧
    (∃ law, Steady law ∧ Motion mb solve law (calm mb) ⟨0, 0, 9⟩ Set.univ mbc) ∧ (mbc 0).q = [[q₀], [q₁]] ∧
    ∀ t, (mbc (t + 2 * Real.pi)).q = (mbc t).q ∧ (mbc (-t)).q = (mbc t).q := by
  obtain ⟨mb, solve, M, ht, hl, hdof, hsz⟩ := Sample.slider
  have R : Robot mb solve := ⟨M.wf, M.rigid, M.inertia, M.subspace, M.solves⟩
  have hr : Reference (fun _ _ _ => 0) (fun _ _ _ => 0) (fun _ _ _ => 0) := ⟨fun t _ _ => hasDerivAt_const t _, fun t _ _ => hasDerivAt_const t _⟩
  set law := trackLaw mb (calm mb) ⟨0, 0, 9⟩ (fun _ _ => 1) (fun _ _ => 0) (fun _ _ _ => 0) (fun _ _ _ => 0) (fun _ _ _ => 0) with hlaw
  have hs : SmoothLaw mb law := trackLaw_smooth M calm_smooth (fun _ _ => contDiff_const) (fun _ _ => contDiff_const) (fun _ _ => contDiff_const)
  have hc : FullForces mb (calm mb) := ⟨fun t q α => by simp [calm], fun k hk => by
    simp only [calm_get]
    exact ⟨.const _, .const _⟩⟩
  have hf : FullLaw mb law := by
    have hq : DiffDof mb fun w : mb.FullSpace => mb.unflatQ w.2.1 :=
      ⟨fun w => M.sizedQ.1 (unflatQ_sized M.wf _), fun i a hi ha => unflatQ_diff M.wf (contDiff_fst.comp contDiff_snd) i a⟩
    have ha : DiffDof mb fun w : mb.FullSpace => mb.unflat w.2.2 := .unflat M.wf (contDiff_snd.comp contDiff_snd)
    refine ⟨fun w => mb.ofEntries_sized M.wf _, fun i a hi hal => ?_⟩
    rw [hlaw]
    unfold trackLaw
    simp only [mb.entry_ofEntries _ hi hal, MultiBody.dofSum_ix]
    refine ContDiff.add (ContDiff.sum fun y _ => (hq.massAt M.wf M.simple _ _ _ _).mul ?_) (hq.biasAt M.wf M.simple ha _ hc.smooth i a)
    exact (contDiff_const.sub (contDiff_const.mul ((ha.entry M.wf _ _).sub contDiff_const))).sub
      (contDiff_const.mul ((hq.entry M.wf _ _).sub contDiff_const))
  have sl : Steady law := fun t t' q α => by
    rw [hlaw]
    unfold trackLaw MultiBody.biasAt
    simp only [calm_get, mb.netForceAt_negAll, zero_mul, sub_zero]
  obtain ⟨c, e1, e2, h⟩ := C94_exists M hs calm_smooth (trackLaw_track M) hr (hsz q₀ q₁) (hsz 0 0)
  have h0 : ∀ i a, i < mb.bodies.length → a < mb.dofAt i → entry (c 0).alpha i a = 0 := fun i a hi ha => by
    rw [hl] at hi
    rw [hdof i hi] at ha
    obtain rfl : a = 0 := by omega
    rw [e2]
    interval_cases i <;> rfl
  have h1 : ∀ i a, i < mb.bodies.length → a < mb.dofAt i → entry (c Real.pi).alpha i a = 0 := fun i a hi ha => by
    have key := fun t => (trackLaw_track M).errors M calm_smooth hr h (t := t) trivial hi ha
    have hw : ∀ t, HasDerivAt (fun s => entry (c s).q i a * Real.sin s + entry (c s).alpha i a * Real.cos s) 0 t := fun t => by
      obtain ⟨k1, k2⟩ := key t
      simp only [sub_zero] at k1 k2
      refine ((k1.mul (Real.hasDerivAt_sin t)).add (k2.mul (Real.hasDerivAt_cos t))).congr_deriv ?_
      ring
    have := constant_on (fun t _ => hw t) Real.pi_pos.le
    simp only [Real.sin_pi, Real.cos_pi, Real.sin_zero, Real.cos_zero, h0 i a hi ha] at this
    linarith
  refine ⟨mb, solve, c, ht, ⟨law, sl, h⟩, e1, fun t => ⟨?_, ?_⟩⟩
  · have := (C96_periodic R hf hc sl (fun _ _ _ _ => rfl) h h0 h1 t).1
    rwa [sub_zero] at this
  · have := (C96_turns R hf hc sl (fun _ _ _ _ => rfl) h h0 t).1
    rw [zero_add, zero_sub] at this
    exact this.symm

/-- With dampers and springs the robot does not return to a state in which it moves. -/
example : ∃ (mb : MultiBody ℝ) (solve : DMat ℝ → List ℝ → List ℝ) (mbc : ℝ → MBC ℝ), mb.joints.map (·.type) = [.Prism, .Rev] ∧
    Motion mb solve (pdLaw mb (fun _ _ => 2) (fun _ _ => 3) []) (calm mb) ⟨0, 0, 9⟩ Set.univ mbc ∧
    ∀ t, 0 < t → ¬ ((mbc t).q = (mbc 0).q ∧ (mbc t).alpha = (mbc 0).alpha) := by
  obtain ⟨mb, solve, M, ht, hl, hdof, hsz⟩ := Sample.slider
  obtain ⟨c, -, e2, h⟩ := C90_forever M (pdLaw_smooth M) calm_smooth (pdLaw_linear M (kp := fun _ _ => 2) (kd := fun _ _ => 3) (goal := [])) (calm_linear M)
    ⟨0, 0, 9⟩ (hsz 0 0) (hsz 1 0) 0
  refine ⟨mb, solve, c, ht, h, fun t ht => C96_damped M (fun _ _ _ _ => three_pos) ht (h.mono (Set.subset_univ _)) (t := 0) ⟨le_rfl, ht.le⟩ (i := 0) (a := 0)
    (by omega) (by rw [hdof 0 two_pos]; exact one_pos) ?_⟩
  rw [e2]
  exact one_ne_zero

end RBDyn
