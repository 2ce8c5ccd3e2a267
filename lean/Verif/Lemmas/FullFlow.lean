import Verif.Lemmas.FullState

/-! The differential equation of robots with joints of all types. Its right-hand side is continuously differentiable in the space of all parameters,
and the norms of the quaternions do not change along its solutions. -/

namespace RBDyn
open scoped Mat3 Topology

/-- A robot made of massive bodies with joints of any type, and a linear solver. -/
structure Robot (mb : MultiBody ℝ) (solve : DMat ℝ → List ℝ → List ℝ) : Prop where
  wf : mb.WF
  rigid : mb.Rigid
  inertia : ∀ b ∈ mb.bodies, ∀ v : MotionVec ℝ, v ≠ 0 → 0 < v.dot (b.inertia.mulMotion v)
  subspace : ∀ j ∈ mb.joints, ∀ c ∈ j.S, c ≠ 0
  solves : SolvesPositive solve mb.nrDof

/-- Time, joint positions and joint velocities as numbers. -/
abbrev MultiBody.FullSpace (mb : MultiBody ℝ) : Type := ℝ × (mb.Px → ℝ) × (mb.Ix → ℝ)

/-- A control law gives torques of the right sizes, which are continuously differentiable functions of time and of the parameters. -/
def FullLaw (mb : MultiBody ℝ) (law : ℝ → List (List ℝ) → List (List ℝ) → List (List ℝ)) : Prop :=
  DiffDof mb fun w : mb.FullSpace => law w.1 (mb.unflatQ w.2.1) (mb.unflat w.2.2)

/-- The environment gives one force per body, which are continuously differentiable functions of time and of the parameters. -/
structure FullForces (mb : MultiBody ℝ) (env : ℝ → List (List ℝ) → List (List ℝ) → List (ForceVec ℝ)) : Prop where
  length : ∀ t q α, (env t q α).length = mb.bodies.length
  smooth : ∀ k, k < mb.bodies.length → DiffForce fun w : mb.FullSpace => ((env w.1 (mb.unflatQ w.2.1) (mb.unflat w.2.2))[k]?).getD 0

variable {mb : MultiBody ℝ} {solve : DMat ℝ → List ℝ → List ℝ} {law : ℝ → List (List ℝ) → List (List ℝ) → List (List ℝ)}
  {env : ℝ → List (List ℝ) → List (List ℝ) → List (ForceVec ℝ)} {γ : Vec3 ℝ}

/-! ### Functions that are differentiable on an open set -/

section localise
variable {W : Type} [NormedAddCommGroup W] [NormedSpace ℝ W] [FiniteDimensional ℝ W] {E : Type} [NormedAddCommGroup E] [NormedSpace ℝ E]

/-- A map into an open set that is the identity near one of its points. -/
theorem localise {U : Set W} (hU : IsOpen U) {w₀ : W} (h : w₀ ∈ U) : ∃ β : W → W, ContDiff ℝ 1 β ∧ (∀ w, β w ∈ U) ∧ ∀ᶠ w in 𝓝 w₀, β w = w := by
  obtain ⟨ε, hε, hb⟩ := Metric.isOpen_iff.1 hU w₀ h
  let f : ContDiffBump w₀ := ⟨ε / 4, ε / 2, by linarith, by linarith⟩
  refine ⟨fun w => w₀ + f w • (w - w₀), contDiff_const.add (f.contDiff.smul (contDiff_id.sub contDiff_const)), fun w => hb ?_, ?_⟩
  · rw [Metric.mem_ball, dist_eq_norm, add_sub_cancel_left, norm_smul, Real.norm_eq_abs, abs_of_nonneg f.nonneg]
    by_cases hw : dist w w₀ < ε / 2
    · rw [dist_eq_norm] at hw
      have := mul_le_mul_of_nonneg_right (f.le_one (x := w)) (norm_nonneg (w - w₀))
      linarith
    · rw [f.zero_of_le_dist (not_lt.1 hw), zero_mul]
      exact hε
  · filter_upwards [f.eventuallyEq_one] with w hw
    rw [hw]
    simp

theorem contDiffAt_of_localised {U : Set W} (hU : IsOpen U) {A : W → E}
    (h : ∀ β : W → W, ContDiff ℝ 1 β → (∀ w, β w ∈ U) → ContDiff ℝ 1 fun w => A (β w)) {w₀ : W} (hw : w₀ ∈ U) : ContDiffAt ℝ 1 A w₀ := by
  obtain ⟨β, h1, h2, h3⟩ := localise hU hw
  exact (h β h1 h2).contDiffAt.congr_of_eventuallyEq (h3.mono fun w hw => (congrArg A hw).symm)

/-- A function that is differentiable where `c` does not vanish, cut off where `c` is small. -/
theorem contDiff_cutoff {c : W → ℝ} (hc : ContDiff ℝ 1 c) {A : W → E} (h : ∀ w, c w ≠ 0 → ContDiffAt ℝ 1 A w) :
    ContDiff ℝ 1 fun w => Real.smoothTransition (4 * c w - 1) • A w := by
  rw [contDiff_iff_contDiffAt]
  intro w
  by_cases hw : c w = 0
  · have : ∀ᶠ v in 𝓝 w, Real.smoothTransition (4 * c v - 1) • A v = 0 := by
      have h1 : ∀ᶠ v in 𝓝 w, c v < 1 / 4 := hc.continuous.continuousAt.eventually (gt_mem_nhds (by rw [hw]; norm_num))
      refine h1.mono fun v hv => ?_
      rw [Real.smoothTransition.zero_of_nonpos (by linarith), zero_smul]
    exact contDiffAt_const.congr_of_eventuallyEq this
  · refine ContDiffAt.smul ?_ (h w hw)
    exact Real.smoothTransition.contDiff.contDiffAt.comp w ((contDiff_const.mul hc).sub contDiff_const).contDiffAt

end localise

/-! ### Rates of the parameters -/

section rate
variable {W : Type} [NormedAddCommGroup W] [NormedSpace ℝ W]

theorem list_six {x : List ℝ} (h : x.length = 6) : x = [x.getD 0 0, x.getD 1 0, x.getD 2 0, x.getD 3 0, x.getD 4 0, x.getD 5 0] := by
  match x, h with
  | [_, _, _, _, _, _], _ => rfl

theorem coordRate_length {t : JointType} {q α : List ℝ} (hq : q.length = Joint.nParams t) (ha : α.length = Joint.nDof t) :
    (coordRate t q α).length = Joint.nParams t := by
  cases t
  case Spherical =>
    rw [list_four hq, list_three ha]
    rfl
  case Planar =>
    rw [list_three hq, list_three ha]
    rfl
  case Free =>
    rw [list_seven hq, list_six ha]
    rfl
  all_goals
    rw [coordRate_plain (by simp [JointType.Plain])]
    exact ha

theorem getD_diff {l : List (W → ℝ)} (h : ∀ f ∈ l, ContDiff ℝ 1 f) (a : Nat) : ContDiff ℝ 1 fun v => (l.map fun f => f v).getD a 0 := by
  by_cases ha : a < l.length
  · have e : (fun v => (l.map fun f => f v).getD a 0) = l[a] := by
      funext v
      simp [List.getD_eq_getElem?_getD, ha]
    rw [e]
    exact h _ (List.getElem_mem ha)
  · have e : (fun v => (l.map fun f => f v).getD a 0) = fun _ => 0 := by
      funext v
      simp [List.getD_eq_getElem?_getD, List.getElem?_eq_none (not_lt.1 ha)]
    rw [e]
    exact contDiff_const

theorem coordRate_diff (t : JointType) {f g : W → List ℝ} (hfl : ∀ v, (f v).length = Joint.nParams t) (hgl : ∀ v, (g v).length = Joint.nDof t)
    (hf : ∀ a, ContDiff ℝ 1 fun v => (f v).getD a 0) (hg : ∀ a, ContDiff ℝ 1 fun v => (g v).getD a 0) (a : Nat) :
    ContDiff ℝ 1 fun v => (coordRate t (f v) (g v)).getD a 0 := by
  by_cases ht : t.Plain
  · simp only [coordRate_plain ht]
    exact hg a
  have hF : ∀ a, ∃ u : W → ℝ, ContDiff ℝ 1 u ∧ ∀ v, (f v).getD a 0 = u v := fun a => ⟨_, hf a, fun _ => rfl⟩
  have hG : ∀ a, ∃ u : W → ℝ, ContDiff ℝ 1 u ∧ ∀ v, (g v).getD a 0 = u v := fun a => ⟨_, hg a, fun _ => rfl⟩
  choose F hF eF using hF
  choose G hG eG using hG
  have f0 := hF 0
  have f1 := hF 1
  have f2 := hF 2
  have f3 := hF 3
  have g0 := hG 0
  have g1 := hG 1
  have g2 := hG 2
  have g3 := hG 3
  have g4 := hG 4
  have g5 := hG 5
  cases t <;> simp [JointType.Plain] at ht
  · have e : ∀ v, coordRate .Spherical (f v) (g v) = coordRate .Spherical [F 0 v, F 1 v, F 2 v, F 3 v] [G 0 v, G 1 v, G 2 v] := fun v => by
      rw [list_four (hfl v), list_three (hgl v)]
      simp only [eF, eG]
    simp only [e]
    refine getD_diff (l := [fun v => (-F 1 v * G 0 v - F 2 v * G 1 v - F 3 v * G 2 v) / 2, fun v => (F 0 v * G 0 v + F 2 v * G 2 v - F 3 v * G 1 v) / 2,
      fun v => (F 0 v * G 1 v + F 3 v * G 0 v - F 1 v * G 2 v) / 2, fun v => (F 0 v * G 2 v + F 1 v * G 1 v - F 2 v * G 0 v) / 2]) ?_ a
    simp only [List.forall_mem_cons]
    exact ⟨by fun_prop, by fun_prop, by fun_prop, by fun_prop, by simp⟩
  · have e : ∀ v, coordRate .Planar (f v) (g v) = coordRate .Planar [F 0 v, F 1 v, F 2 v] [G 0 v, G 1 v, G 2 v] := fun v => by
      rw [list_three (hfl v), list_three (hgl v)]
      simp only [eF, eG]
    simp only [e]
    refine getD_diff (l := [fun v => G 0 v, fun v => G 1 v + G 0 v * F 2 v, fun v => G 2 v - G 0 v * F 1 v]) ?_ a
    simp only [List.forall_mem_cons]
    exact ⟨by fun_prop, by fun_prop, by fun_prop, by simp⟩
  · have e : ∀ v, coordRate .Free (f v) (g v) = coordRate .Free [F 0 v, F 1 v, F 2 v, F 3 v, F 4 v, F 5 v, F 6 v]
        [G 0 v, G 1 v, G 2 v, G 3 v, G 4 v, G 5 v] := fun v => by
      rw [list_seven (hfl v), list_six (hgl v)]
      simp only [eF, eG]
    simp only [e]
    have hR : DiffVec fun v => Quat.toRot ⟨F 0 v, F 1 v, F 2 v, F 3 v⟩ *ᵥ ⟨G 3 v, G 4 v, G 5 v⟩ := by
      refine DiffMat.mulVec ?_ ⟨g3, g4, g5⟩
      unfold Quat.toRot
      constructor <;> dsimp only <;> fun_prop
    refine getD_diff (l := [fun v => (-F 1 v * G 0 v - F 2 v * G 1 v - F 3 v * G 2 v) / 2, fun v => (F 0 v * G 0 v + F 2 v * G 2 v - F 3 v * G 1 v) / 2,
      fun v => (F 0 v * G 1 v + F 3 v * G 0 v - F 1 v * G 2 v) / 2, fun v => (F 0 v * G 2 v + F 1 v * G 1 v - F 2 v * G 0 v) / 2,
      fun v => (Quat.toRot ⟨F 0 v, F 1 v, F 2 v, F 3 v⟩ *ᵥ ⟨G 3 v, G 4 v, G 5 v⟩).x, fun v => (Quat.toRot ⟨F 0 v, F 1 v, F 2 v, F 3 v⟩ *ᵥ ⟨G 3 v, G 4 v, G 5 v⟩).y,
      fun v => (Quat.toRot ⟨F 0 v, F 1 v, F 2 v, F 3 v⟩ *ᵥ ⟨G 3 v, G 4 v, G 5 v⟩).z]) ?_ a
    simp only [List.forall_mem_cons]
    exact ⟨by fun_prop, by fun_prop, by fun_prop, by fun_prop, hR.x, hR.y, hR.z, by simp⟩

/-- The quaternions move at right angles to themselves. -/
theorem coordRate_quat {t : JointType} (ht : t.IsQuat) {q α : List ℝ} (hq : q.length = Joint.nParams t) (ha : α.length = Joint.nDof t) :
    q.getD 0 0 * (coordRate t q α).getD 0 0 + q.getD 1 0 * (coordRate t q α).getD 1 0 + q.getD 2 0 * (coordRate t q α).getD 2 0 +
      q.getD 3 0 * (coordRate t q α).getD 3 0 = 0 := by
  rcases ht with rfl | rfl
  · rw [list_four hq, list_three ha]
    simp [coordRate]
    ring
  · rw [list_seven hq, list_six ha]
    simp [coordRate]
    ring

end rate

/-- The rates of the parameters. -/
noncomputable def MultiBody.coordRateAt (mb : MultiBody ℝ) (w : mb.FullSpace) (i a : Nat) : ℝ :=
  (coordRate (mb.typeAt i) (((mb.unflatQ w.2.1)[i]?).getD []) (((mb.unflat w.2.2)[i]?).getD [])).getD a 0

section space
variable {W : Type} [NormedAddCommGroup W] [NormedSpace ℝ W]

theorem unflatQ_diff (wf : mb.WF) {v : W → mb.Px → ℝ} (hv : ContDiff ℝ 1 v) (i a : Nat) : ContDiff ℝ 1 fun w => entry (mb.unflatQ (v w)) i a := by
  by_cases hc : i < mb.bodies.length ∧ a < mb.paramsAt i
  · simp only [entry_unflatQ _ hc.1 hc.2]
    exact (contDiff_apply ℝ ℝ _).comp hv
  · simp only [entry_beyondQ wf (unflatQ_sized wf _) hc]
    exact contDiff_const

theorem coordRateAt_diff (wf : mb.WF) {i : Nat} (hi : i < mb.bodies.length) (a : Nat) : ContDiff ℝ 1 fun w : mb.FullSpace => mb.coordRateAt w i a := by
  refine coordRate_diff _ (fun w => ?_) (fun w => ?_) (fun a => ?_) (fun a => ?_) a
  · rw [(unflatQ_sized wf _).getD_length wf hi, wf.params_type hi]
  · rw [(mb.unflat_sized wf _).getD_length wf hi, wf.dof_type hi]
  · exact unflatQ_diff wf (contDiff_fst.comp contDiff_snd) i a
  · exact (DiffDof.unflat wf (contDiff_snd.comp contDiff_snd)).entry wf i a

/-- The product of the squared norms of the quaternions. -/
noncomputable def MultiBody.quatProd (mb : MultiBody ℝ) (w : mb.FullSpace) : ℝ :=
  ∏ i ∈ (Finset.range mb.bodies.length).filter fun i => (mb.typeAt i).IsQuat, quatSq (mb.unflatQ w.2.1) i

theorem quatSq_diff (wf : mb.WF) (i : Nat) : ContDiff ℝ 1 fun w : mb.FullSpace => quatSq (mb.unflatQ w.2.1) i := by
  have h := fun a => unflatQ_diff (mb := mb) wf (v := fun w : mb.FullSpace => w.2.1) (contDiff_fst.comp contDiff_snd) i a
  exact ((((h 0).pow 2).add ((h 1).pow 2)).add ((h 2).pow 2)).add ((h 3).pow 2)

theorem quatProd_diff (wf : mb.WF) : ContDiff ℝ 1 mb.quatProd := contDiff_prod fun i _ => quatSq_diff wf i

/-- Normalised positions are continuously differentiable where no quaternion vanishes. -/
theorem unitQ_diff (wf : mb.WF) {v : W → mb.FullSpace} (hv : ContDiff ℝ 1 v) (h0 : ∀ w, mb.quatProd (v w) ≠ 0) {i : Nat} (hi : i < mb.bodies.length) (a : Nat) :
    ContDiff ℝ 1 fun w => entry (mb.unitQ (mb.unflatQ (v w).2.1)) i a := by
  simp only [fun w => unitQ_entry wf (unflatQ_sized wf (v w).2.1) i a hi]
  have he := unflatQ_diff (mb := mb) wf (v := fun w => (v w).2.1) ((contDiff_fst.comp contDiff_snd).comp hv) i a
  by_cases hc : (mb.typeAt i).IsQuat ∧ a < 4
  · have hne : ∀ w, quatSq (mb.unflatQ (v w).2.1) i ≠ 0 := fun w =>
      Finset.prod_ne_zero_iff.1 (h0 w) i (Finset.mem_filter.2 ⟨Finset.mem_range.2 hi, hc.1⟩)
    have e : ∀ w, mb.unitEntry (mb.unflatQ (v w).2.1) i a = entry (mb.unflatQ (v w).2.1) i a / √(quatSq (mb.unflatQ (v w).2.1) i) := fun w => by
      rw [MultiBody.unitEntry, if_pos hc, if_neg (hne w)]
    simp only [e]
    refine he.div (ContDiff.sqrt ((quatSq_diff wf i).comp hv) hne) fun w => ?_
    exact Real.sqrt_ne_zero'.2 (lt_of_le_of_ne (quatSq_nonneg _ _) (hne w).symm)
  · have e : ∀ w, mb.unitEntry (mb.unflatQ (v w).2.1) i a = entry (mb.unflatQ (v w).2.1) i a := fun w => by
      rw [MultiBody.unitEntry, if_neg hc]
    simp only [e]
    exact he

end space

/-! ### Accelerations -/

/-- The accelerations at a time and a state, with the quaternions normalised. -/
noncomputable def accelUnit (mb : MultiBody ℝ) (law : ℝ → List (List ℝ) → List (List ℝ) → List (List ℝ))
    (env : ℝ → List (List ℝ) → List (List ℝ) → List (ForceVec ℝ)) (γ : Vec3 ℝ) (w : mb.FullSpace) : mb.Ix → ℝ :=
  mb.accOf (mb.unitQ (mb.unflatQ w.2.1)) (mb.unflat w.2.2) (law w.1 (mb.unflatQ w.2.1) (mb.unflat w.2.2)) ⟨0, γ⟩
    fun k => ((env w.1 (mb.unflatQ w.2.1) (mb.unflat w.2.2))[k]?).getD 0

theorem DiffForce.comp {V W : Type} [NormedAddCommGroup V] [NormedSpace ℝ V] [NormedAddCommGroup W] [NormedSpace ℝ W] {f : W → ForceVec ℝ}
    (h : DiffForce f) {β : V → W} (hβ : ContDiff ℝ 1 β) : DiffForce fun v => f (β v) :=
  ⟨⟨h.couple.x.comp hβ, h.couple.y.comp hβ, h.couple.z.comp hβ⟩, ⟨h.force.x.comp hβ, h.force.y.comp hβ, h.force.z.comp hβ⟩⟩

theorem quatProd_open (wf : mb.WF) : IsOpen {w : mb.FullSpace | mb.quatProd w ≠ 0} :=
  (quatProd_diff wf).continuous.isOpen_preimage _ isOpen_ne

theorem unitPose_diff (wf : mb.WF) (hr : mb.Rigid) {W : Type} [NormedAddCommGroup W] [NormedSpace ℝ W] {β : W → mb.FullSpace} (hβ : ContDiff ℝ 1 β)
    (h0 : ∀ w, mb.quatProd (β w) ≠ 0) : DiffPose mb fun w => mb.unitQ (mb.unflatQ (β w).2.1) :=
  diffPose_of_valid wf hr (fun _ => unitQ_valid wf (unflatQ_sized wf _)) fun _ a hi => unitQ_diff wf hβ h0 hi a

theorem accelUnit_diff (R : Robot mb solve) (hl : FullLaw mb law) (he : FullForces mb env) (γ : Vec3 ℝ) {w : mb.FullSpace} (hw : mb.quatProd w ≠ 0) :
    ContDiffAt ℝ 1 (accelUnit mb law env γ) w := by
  refine contDiffAt_of_localised (quatProd_open R.wf) (fun β hβ h0 => ?_) hw
  exact DiffPose.accOf R.wf R.rigid (fun w => unitQ_valid R.wf (unflatQ_sized R.wf _)) R.inertia R.subspace (unitPose_diff R.wf R.rigid hβ h0)
    (.unflat R.wf ((contDiff_snd.comp contDiff_snd).comp hβ)) ⟨fun w => hl.sized (β w), fun i a hi ha => (hl.smooth i a hi ha).comp hβ⟩ _
    fun k hk => (he.smooth k hk).comp hβ

/-- The right-hand side of the differential equation of the robot. -/
noncomputable def fullFlow (mb : MultiBody ℝ) (law : ℝ → List (List ℝ) → List (List ℝ) → List (List ℝ))
    (env : ℝ → List (List ℝ) → List (List ℝ) → List (ForceVec ℝ)) (γ : Vec3 ℝ) (w : mb.FullSpace) : mb.FullSpace :=
  (1, fun x => mb.coordRateAt w x.1 x.2, Real.smoothTransition (4 * mb.quatProd w - 1) • accelUnit mb law env γ w)

theorem fullFlow_diff (R : Robot mb solve) (hl : FullLaw mb law) (he : FullForces mb env) (γ : Vec3 ℝ) : ContDiff ℝ 1 (fullFlow mb law env γ) :=
  contDiff_const.prodMk ((contDiff_pi.2 fun x : mb.Px => coordRateAt_diff R.wf x.1.2 x.2).prodMk
    (contDiff_cutoff (quatProd_diff R.wf) fun _ hw => accelUnit_diff R hl he γ hw))

/-- The states with unit quaternions. -/
def MultiBody.UnitSpace (mb : MultiBody ℝ) : Set mb.FullSpace := {w | ValidQ mb (mb.unflatQ w.2.1)}

theorem quatProd_unit (wf : mb.WF) {w : mb.FullSpace} (hw : w ∈ mb.UnitSpace) : mb.quatProd w = 1 :=
  Finset.prod_eq_one fun i hi => by
    obtain ⟨h1, h2⟩ := Finset.mem_filter.1 hi
    exact ((validQ_iff wf).1 hw).2 i (Finset.mem_range.1 h1) h2

theorem fullFlow_unit (wf : mb.WF) {w : mb.FullSpace} (hw : w ∈ mb.UnitSpace) :
    fullFlow mb law env γ w = (1, fun x => mb.coordRateAt w x.1 x.2, accelUnit mb law env γ w) := by
  unfold fullFlow
  rw [quatProd_unit wf hw, Real.smoothTransition.one_of_one_le (by norm_num), one_smul]

/-- The quaternions stay unit quaternions along every solution, at whatever speed it is run through. -/
theorem unitSpace_stays (wf : mb.WF) {f : mb.FullSpace → ℝ} {x : ℝ → mb.FullSpace} {a b t₀ : ℝ} (h0 : t₀ ∈ Set.Ioo a b) (hx0 : x t₀ ∈ mb.UnitSpace)
    (hx : ∀ t ∈ Set.Ioo a b, HasDerivAt x (f (x t) • fullFlow mb law env γ (x t)) t) {t : ℝ} (ht : t ∈ Set.Ioo a b) : x t ∈ mb.UnitSpace := by
  refine (validQ_iff wf).2 ⟨unflatQ_sized wf _, fun i hi hq => ?_⟩
  rw [← ((validQ_iff wf).1 hx0).2 i hi hq]
  have h4 := isQuat_params hq
  rw [← wf.params_type hi] at h4
  have hd : ∀ s ∈ Set.Ioo a b, HasDerivAt (fun s => quatSq (mb.unflatQ (x s).2.1) i) 0 s := fun s hs => by
    have h1 : HasDerivAt (fun s => (x s).2.1) (f (x s) • fun y : mb.Px => mb.coordRateAt (x s) y.1 y.2) s :=
      ((ContinuousLinearMap.fst ℝ (mb.Px → ℝ) (mb.Ix → ℝ)).comp (ContinuousLinearMap.snd ℝ ℝ ((mb.Px → ℝ) × (mb.Ix → ℝ)))).hasFDerivAt.comp_hasDerivAt s
        (hx s hs)
    have h2 : ∀ c, c < 4 → HasDerivAt (fun s => entry (mb.unflatQ (x s).2.1) i c) (f (x s) * mb.coordRateAt (x s) i c) s := fun c hc => by
      have e : (fun s => entry (mb.unflatQ (x s).2.1) i c) = fun s => (x s).2.1 ⟨⟨i, hi⟩, ⟨c, lt_of_lt_of_le hc h4⟩⟩ :=
        funext fun s => entry_unflatQ _ hi (lt_of_lt_of_le hc h4)
      rw [e]
      exact hasDerivAt_pi.1 h1 ⟨⟨i, hi⟩, ⟨c, lt_of_lt_of_le hc h4⟩⟩
    have h3 := ((((h2 0 (by decide)).pow 2).add ((h2 1 (by decide)).pow 2)).add ((h2 2 (by decide)).pow 2)).add ((h2 3 (by decide)).pow 2)
    refine h3.congr_deriv ?_
    have hk := coordRate_quat hq (q := ((mb.unflatQ (x s).2.1)[i]?).getD []) (α := ((mb.unflat (x s).2.2)[i]?).getD [])
      (by rw [(unflatQ_sized wf _).getD_length wf hi, wf.params_type hi]) (by rw [(mb.unflat_sized wf _).getD_length wf hi, wf.dof_type hi])
    change entry (mb.unflatQ (x s).2.1) i 0 * mb.coordRateAt (x s) i 0 + entry (mb.unflatQ (x s).2.1) i 1 * mb.coordRateAt (x s) i 1 +
      entry (mb.unflatQ (x s).2.1) i 2 * mb.coordRateAt (x s) i 2 + entry (mb.unflatQ (x s).2.1) i 3 * mb.coordRateAt (x s) i 3 = 0 at hk
    simp only [Nat.add_one_sub_one, pow_one, Nat.cast_ofNat]
    linear_combination 2 * f (x s) * hk
  exact (convex_Ioo a b).is_const_of_fderivWithin_eq_zero (𝕜 := ℝ) (f := fun s => quatSq (mb.unflatQ (x s).2.1) i)
    (fun s hs => (hd s hs).differentiableAt.differentiableWithinAt)
    (fun s hs => by
      rw [fderivWithin_of_isOpen isOpen_Ioo hs, (hd s hs).hasFDerivAt.fderiv]
      ext
      simp) ht h0

end RBDyn
