import Mathlib.LinearAlgebra.Matrix.NonsingularInverse
import Mathlib.LinearAlgebra.Matrix.ToLin
import Mathlib.Analysis.Calculus.ContDiff.Operations
import Verif.Lemmas.ReachDiff
import Verif.Props.LeastConstraint

/-! The quantities of forward dynamics as continuously differentiable functions of the state of the robot. -/

namespace RBDyn
open scoped Mat3

section diff
variable {W : Type} [NormedAddCommGroup W] [NormedSpace ℝ W]

structure DiffForce (f : W → ForceVec ℝ) : Prop where
  couple : DiffVec fun v => (f v).couple
  force : DiffVec fun v => (f v).force

theorem DiffMotion.const (c : MotionVec ℝ) : DiffMotion fun _ : W => c := ⟨.const _, .const _⟩

theorem DiffMotion.add {f g : W → MotionVec ℝ} (hf : DiffMotion f) (hg : DiffMotion g) : DiffMotion fun v => f v + g v :=
  ⟨hf.ang.add hg.ang, hf.lin.add hg.lin⟩

theorem DiffMotion.smul {s : W → ℝ} {f : W → MotionVec ℝ} (hs : ContDiff ℝ 1 s) (hf : DiffMotion f) : DiffMotion fun v => s v • f v :=
  ⟨.smul hs hf.ang, .smul hs hf.lin⟩

theorem DiffMotion.cross {f g : W → MotionVec ℝ} (hf : DiffMotion f) (hg : DiffMotion g) : DiffMotion fun v => (f v).cross (g v) :=
  ⟨hf.ang.cross hg.ang, (hf.ang.cross hg.lin).add (hf.lin.cross hg.ang)⟩

theorem DiffMotion.sum {f : Nat → W → MotionVec ℝ} (s : Finset Nat) (h : ∀ i ∈ s, DiffMotion (f i)) : DiffMotion fun v => ∑ i ∈ s, f i v := by
  induction s using Finset.induction_on with
  | empty => simp only [Finset.sum_empty]; exact .const _
  | insert a s ha ih =>
    simp only [Finset.sum_insert ha]
    exact (h a (by simp)).add (ih fun i hi => h i (by simp [hi]))

theorem DiffPT.applied {f : W → PTransform ℝ} {g : W → MotionVec ℝ} (hf : DiffPT f) (hg : DiffMotion g) :
    DiffMotion fun v => (f v).mulMotion (g v) :=
  ⟨hf.E.mulVec hg.ang, hf.E.mulVec (hg.lin.sub (hf.r.cross hg.ang))⟩

theorem DiffForce.const (c : ForceVec ℝ) : DiffForce fun _ : W => c := ⟨.const _, .const _⟩

theorem DiffForce.add {f g : W → ForceVec ℝ} (hf : DiffForce f) (hg : DiffForce g) : DiffForce fun v => f v + g v :=
  ⟨hf.couple.add hg.couple, hf.force.add hg.force⟩

theorem DiffForce.sub {f g : W → ForceVec ℝ} (hf : DiffForce f) (hg : DiffForce g) : DiffForce fun v => f v - g v :=
  ⟨hf.couple.sub hg.couple, hf.force.sub hg.force⟩

theorem DiffMotion.crossDual {f : W → MotionVec ℝ} {g : W → ForceVec ℝ} (hf : DiffMotion f) (hg : DiffForce g) :
    DiffForce fun v => (f v).crossDual (g v) :=
  ⟨(hf.ang.cross hg.couple).add (hf.lin.cross hg.force), hf.ang.cross hg.force⟩

theorem DiffPT.dual {f : W → PTransform ℝ} {g : W → ForceVec ℝ} (hf : DiffPT f) (hg : DiffForce g) : DiffForce fun v => (f v).dualMul (g v) :=
  ⟨hf.E.mulVec (hg.couple.sub (hf.r.cross hg.force)), hf.E.mulVec hg.force⟩

theorem DiffMotion.inertia {f : W → MotionVec ℝ} (hf : DiffMotion f) (I : RBInertia ℝ) : DiffForce fun v => I.mulMotion (f v) :=
  ⟨((DiffMat.const _).mulVec hf.ang).add ((DiffVec.const _).cross hf.lin), (DiffVec.smul contDiff_const hf.lin).sub ((DiffVec.const _).cross hf.ang)⟩

theorem DiffVec.dot {f g : W → Vec3 ℝ} (hf : DiffVec f) (hg : DiffVec g) : ContDiff ℝ 1 fun v => (f v).dot (g v) :=
  ((hf.x.mul hg.x).add (hf.y.mul hg.y)).add (hf.z.mul hg.z)

theorem DiffMotion.dot {f : W → MotionVec ℝ} {g : W → ForceVec ℝ} (hf : DiffMotion f) (hg : DiffForce g) : ContDiff ℝ 1 fun v => (f v).dot (g v) :=
  (hf.ang.dot hg.couple).add (hf.lin.dot hg.force)

/-- Per-joint vectors of the sizes of the robot whose entries are continuously differentiable. -/
structure DiffDof (mb : MultiBody ℝ) (Q : W → List (List ℝ)) : Prop where
  sized : ∀ v, SizedDof mb (Q v)
  smooth : ∀ i a, i < mb.bodies.length → a < mb.dofAt i → ContDiff ℝ 1 fun v => entry (Q v) i a

variable {mb : MultiBody ℝ} {Q A : W → List (List ℝ)}

theorem entry_beyond (wf : mb.WF) {v : List (List ℝ)} (hv : SizedDof mb v) {i a : Nat} (h : ¬ (i < mb.bodies.length ∧ a < mb.dofAt i)) :
    entry v i a = 0 := by
  unfold entry
  by_cases hi : i < mb.bodies.length
  · have := hv.getD_length wf hi
    rw [List.getD_eq_getElem?_getD, List.getElem?_eq_none (by rw [this]; by_contra hc; exact h ⟨hi, by omega⟩), Option.getD_none]
  · rw [List.getElem?_eq_none (by rw [hv.length, wf.njoints]; omega)]
    simp

theorem DiffDof.entry (wf : mb.WF) (h : DiffDof mb Q) (i a : Nat) : ContDiff ℝ 1 fun v => entry (Q v) i a := by
  by_cases hc : i < mb.bodies.length ∧ a < mb.dofAt i
  · exact h.smooth i a hc.1 hc.2
  · simp only [entry_beyond wf (h.sized _) hc]
    exact contDiff_const

theorem DiffDof.poseAt (wf : mb.WF) (hs : ∀ j ∈ mb.joints, j.type.Plain) (h : DiffDof mb Q) (i : Nat) : DiffPT fun v => mb.poseAt (Q v) i := by
  by_cases hi : i < mb.bodies.length
  · obtain ⟨j, e, -⟩ := wf.joint_get hi
    have hm := List.mem_of_getElem? e
    have e1 : (fun v => mb.poseAt (Q v) i) = fun v => ((j.pose (((Q v)[i]?).getD [])).toOption.getD 1) := by
      funext v
      have hl : i < (Q v).length := by rw [(h.sized v).length, wf.njoints]; exact hi
      unfold MultiBody.poseAt
      rw [e, List.getElem?_eq_getElem hl]
      rfl
    rw [e1]
    refine (wf.built j hm).pose_diff (hs j hm) (fun v => ?_) fun a => h.entry wf i a
    rw [(h.sized v).getD_length wf hi]
    simp [MultiBody.dofAt, e]
  · have : mb.joints[i]? = none := by rw [List.getElem?_eq_none_iff, wf.njoints]; omega
    unfold MultiBody.poseAt
    simp only [this]
    exact .const _

/-- Joint positions at which the poses of all joints are continuously differentiable. -/
abbrev DiffPose (mb : MultiBody ℝ) (Q : W → List (List ℝ)) : Prop := ∀ i, DiffPT fun v => mb.poseAt (Q v) i

theorem DiffPose.posAt (h : DiffPose mb Q) (i : Nat) : DiffPT fun v => mb.posAt (Q v) i := by
  unfold MultiBody.posAt
  refine DiffPT.prod _ fun k _ => ?_
  unfold MultiBody.ptsAt
  exact (h k).mul (.const _)

theorem DiffDof.posAt (wf : mb.WF) (hs : ∀ j ∈ mb.joints, j.type.Plain) (h : DiffDof mb Q) (i : Nat) : DiffPT fun v => mb.posAt (Q v) i :=
  DiffPose.posAt (h.poseAt wf hs) i

theorem DiffPose.relAt (h : DiffPose mb Q) (k i : Nat) : DiffPT fun v => mb.relAt (Q v) k i :=
  (h.posAt i).mul (h.posAt k).inv

theorem DiffDof.relAt (wf : mb.WF) (hs : ∀ j ∈ mb.joints, j.type.Plain) (h : DiffDof mb Q) (k i : Nat) : DiffPT fun v => mb.relAt (Q v) k i :=
  DiffPose.relAt (h.poseAt wf hs) k i

theorem DiffPose.colAt (h : DiffPose mb Q) (k i a : Nat) : DiffMotion fun v => mb.colAt (Q v) k i a := by
  unfold MultiBody.colAt
  split
  · exact (h.relAt i k).mulMotion _
  · exact .const _

theorem DiffDof.colAt (wf : mb.WF) (hs : ∀ j ∈ mb.joints, j.type.Plain) (h : DiffDof mb Q) (k i a : Nat) : DiffMotion fun v => mb.colAt (Q v) k i a :=
  DiffPose.colAt (h.poseAt wf hs) k i a

theorem DiffDof.jointMotion (wf : mb.WF) (h : DiffDof mb A) {i : Nat} (hi : i < mb.bodies.length) : DiffMotion fun v => mb.jointMotion (A v) i := by
  simp only [wf.jointMotion_eq _ hi]
  exact DiffMotion.sum _ fun b _ => .smul (h.entry wf i b) (.const _)

theorem DiffPose.velAt (wf : mb.WF) (h : DiffPose mb Q) (ha : DiffDof mb A) (i : Nat) :
    DiffMotion fun v => mb.velAt (Q v) (A v) i := by
  unfold MultiBody.velAt
  refine DiffMotion.sum _ fun k hk => (h.relAt k i).applied (ha.jointMotion wf ?_)
  exact Finset.mem_range.1 (Finset.mem_filter.1 hk).1

theorem DiffDof.velAt (wf : mb.WF) (hs : ∀ j ∈ mb.joints, j.type.Plain) (h : DiffDof mb Q) (ha : DiffDof mb A) (i : Nat) :
    DiffMotion fun v => mb.velAt (Q v) (A v) i :=
  DiffPose.velAt wf (h.poseAt wf hs) ha i

theorem DiffPose.accBias (wf : mb.WF) (h : DiffPose mb Q) (ha : DiffDof mb A) (a0 : MotionVec ℝ) (i : Nat) :
    DiffMotion fun v => mb.accAt (Q v) (A v) [] a0 i := by
  have h0 : ∀ k, mb.jointMotion [] k = 0 := fun k => by simp [MultiBody.jointMotion, applyCols]
  unfold MultiBody.accAt
  simp only [h0, zero_add]
  refine ((h.posAt i).mulMotion a0).add (DiffMotion.sum _ fun k hk => (h.relAt k i).applied ?_)
  exact (h.velAt wf ha k).cross (ha.jointMotion wf (Finset.mem_range.1 (Finset.mem_filter.1 hk).1))

theorem DiffDof.accBias (wf : mb.WF) (hs : ∀ j ∈ mb.joints, j.type.Plain) (h : DiffDof mb Q) (ha : DiffDof mb A) (a0 : MotionVec ℝ) (i : Nat) :
    DiffMotion fun v => mb.accAt (Q v) (A v) [] a0 i :=
  DiffPose.accBias wf (h.poseAt wf hs) ha a0 i

theorem DiffPose.massAt (h : DiffPose mb Q) (i a j b : Nat) :
    ContDiff ℝ 1 fun v => mb.massAt (Q v) i a j b := by
  unfold MultiBody.massAt
  exact ContDiff.sum fun k _ => (h.colAt k i a).dot ((h.colAt k j b).inertia _)

theorem DiffDof.massAt (wf : mb.WF) (hs : ∀ j ∈ mb.joints, j.type.Plain) (h : DiffDof mb Q) (i a j b : Nat) :
    ContDiff ℝ 1 fun v => mb.massAt (Q v) i a j b :=
  DiffPose.massAt (h.poseAt wf hs) i a j b

end diff

/-- The torque of degree of freedom `a` of joint `i` that holds the velocities constant (`C` of the equation of motion). -/
noncomputable def MultiBody.biasAt (mb : MultiBody ℝ) (q α : List (List ℝ)) (a0 : MotionVec ℝ) (fe : Nat → ForceVec ℝ) (i a : Nat) : ℝ :=
  ((mb.SAt i).getD a 0).dot (mb.wrenchAt q (mb.netForceAt q α [] a0 fe) i)

section diff
variable {W : Type} [NormedAddCommGroup W] [NormedSpace ℝ W] {mb : MultiBody ℝ} {Q A : W → List (List ℝ)}

theorem DiffPose.biasAt (wf : mb.WF) (h : DiffPose mb Q) (ha : DiffDof mb A) (a0 : MotionVec ℝ)
    {fe : W → Nat → ForceVec ℝ} (hf : ∀ k, k < mb.bodies.length → DiffForce fun v => fe v k) (i a : Nat) :
    ContDiff ℝ 1 fun v => mb.biasAt (Q v) (A v) a0 (fe v) i a := by
  unfold MultiBody.biasAt
  simp only [MultiBody.dot_wrenchAt]
  refine ContDiff.sum fun k hk => (h.colAt k i a).dot ?_
  unfold MultiBody.netForceAt
  have hv := h.velAt wf ha k
  exact (((h.accBias wf ha a0 k).inertia _).add (hv.crossDual (hv.inertia _))).sub ((h.posAt k).dual (hf k (Finset.mem_range.1 hk)))

theorem DiffDof.biasAt (wf : mb.WF) (hs : ∀ j ∈ mb.joints, j.type.Plain) (h : DiffDof mb Q) (ha : DiffDof mb A) (a0 : MotionVec ℝ)
    {fe : W → Nat → ForceVec ℝ} (hf : ∀ k, k < mb.bodies.length → DiffForce fun v => fe v k) (i a : Nat) :
    ContDiff ℝ 1 fun v => mb.biasAt (Q v) (A v) a0 (fe v) i a :=
  DiffPose.biasAt wf (h.poseAt wf hs) ha a0 hf i a

end diff

/-! ### Vectors of numbers -/

/-- The degrees of freedom of a robot. -/
abbrev MultiBody.Ix (mb : MultiBody ℝ) : Type := Σ i : Fin mb.bodies.length, Fin (mb.dofAt i)

/-- The per-joint vectors with the entries of the vector `v`. -/
def MultiBody.unflat (mb : MultiBody ℝ) (v : mb.Ix → ℝ) : List (List ℝ) :=
  mb.ofEntries fun i a => if h : i < mb.bodies.length then if h' : a < mb.dofAt i then v ⟨⟨i, h⟩, ⟨a, h'⟩⟩ else 0 else 0

/-- The entries of per-joint vectors. -/
noncomputable def MultiBody.flat (mb : MultiBody ℝ) (q : List (List ℝ)) : mb.Ix → ℝ := fun x => entry q x.1 x.2

variable {mb : MultiBody ℝ}

theorem MultiBody.entry_unflat (v : mb.Ix → ℝ) {i a : Nat} (hi : i < mb.bodies.length) (ha : a < mb.dofAt i) :
    entry (mb.unflat v) i a = v ⟨⟨i, hi⟩, ⟨a, ha⟩⟩ := by
  unfold MultiBody.unflat
  rw [mb.entry_ofEntries _ hi ha, dif_pos hi, dif_pos ha]

theorem MultiBody.flat_unflat (v : mb.Ix → ℝ) : mb.flat (mb.unflat v) = v := by
  funext x
  unfold MultiBody.flat
  rw [MultiBody.entry_unflat v x.1.2 x.2.2]

theorem MultiBody.unflat_flat (wf : mb.WF) {q : List (List ℝ)} (hq : SizedDof mb q) : mb.unflat (mb.flat q) = q :=
  SizedDof.ext_entry wf (mb.ofEntries_sized wf _) hq fun i a hi ha => MultiBody.entry_unflat _ hi ha

theorem MultiBody.unflat_sized (wf : mb.WF) (v : mb.Ix → ℝ) : SizedDof mb (mb.unflat v) := mb.ofEntries_sized wf _

theorem DiffDof.unflat {W : Type} [NormedAddCommGroup W] [NormedSpace ℝ W] (wf : mb.WF) {f : W → mb.Ix → ℝ} (hf : ContDiff ℝ 1 f) :
    DiffDof mb fun w => mb.unflat (f w) := by
  refine ⟨fun w => mb.unflat_sized wf _, fun i a hi ha => ?_⟩
  simp only [MultiBody.entry_unflat _ hi ha]
  exact (contDiff_pi.1 hf) _

theorem MultiBody.dofSum_ix (g : Nat → Nat → ℝ) : mb.dofSum g = ∑ x : mb.Ix, g x.1 x.2 := by
  unfold MultiBody.dofSum
  rw [Fintype.sum_sigma, Finset.sum_range]
  refine Finset.sum_congr rfl fun i _ => ?_
  rw [Finset.sum_range]

/-- The mass matrix. -/
noncomputable def MultiBody.massMat (mb : MultiBody ℝ) (q : List (List ℝ)) : Matrix mb.Ix mb.Ix ℝ := fun x y => mb.massAt q x.1 x.2 y.1 y.2

/-- The mass matrix of a robot of massive bodies is regular. -/
theorem massMat_regular (wf : mb.WF) (hr : mb.Rigid) {q : List (List ℝ)} (hq : ValidQ mb q)
    (hI : ∀ b ∈ mb.bodies, ∀ v : MotionVec ℝ, v ≠ 0 → 0 < v.dot (b.inertia.mulMotion v)) (hS : ∀ j ∈ mb.joints, ∀ c ∈ j.S, c ≠ 0) :
    IsUnit (mb.massMat q).det := by
  classical
  rw [← Matrix.isUnit_iff_isUnit_det, ← Matrix.mulVec_injective_iff_isUnit, ← Matrix.coe_mulVecLin, injective_iff_map_eq_zero]
  intro x hx
  rw [Matrix.mulVecLin_apply] at hx
  have hsv := mb.unflat_sized wf x
  have hk := wf.kinetic (q := q) (mb.unflat x)
  have hM : ∀ i a, i < mb.bodies.length → a < mb.dofAt i → (mb.dofSum fun j b => mb.massAt q i a j b * entry (mb.unflat x) j b) = 0 := by
    intro i a hi ha
    have := congrFun hx ⟨⟨i, hi⟩, ⟨a, ha⟩⟩
    rw [MultiBody.dofSum_ix]
    rw [Matrix.mulVec, dotProduct] at this
    refine Eq.trans (Finset.sum_congr rfl fun y _ => ?_) this
    rw [MultiBody.entry_unflat x y.1.2 y.2.2]
    rfl
  rw [dofSum_congr (h := fun _ _ => 0) fun i a hi ha => by rw [hM i a hi ha, mul_zero]] at hk
  have hk : (0 : ℝ) = ∑ k ∈ Finset.range mb.bodies.length, (mb.velAt q (mb.unflat x) k).dot ((mb.inertiaAt k).mulMotion (mb.velAt q (mb.unflat x) k)) := by
    rw [← hk]; simp [MultiBody.dofSum]
  have hin : ∀ k, k < mb.bodies.length → mb.velAt q (mb.unflat x) k ≠ 0 →
      0 < (mb.velAt q (mb.unflat x) k).dot ((mb.inertiaAt k).mulMotion (mb.velAt q (mb.unflat x) k)) := by
    intro k hk hne
    have : mb.inertiaAt k = (mb.bodies[k]).inertia := by simp [MultiBody.inertiaAt, hk]
    rw [this]
    exact hI _ (List.getElem_mem hk) _ hne
  have hz : ∀ k, k < mb.bodies.length → mb.velAt q (mb.unflat x) k = 0 := by
    by_contra hc
    push Not at hc
    obtain ⟨k, hkl, hk0⟩ := hc
    refine (ne_of_lt (Finset.sum_pos' (fun k hk => ?_) ⟨k, Finset.mem_range.2 hkl, hin k hkl hk0⟩)) hk
    by_cases hk0 : mb.velAt q (mb.unflat x) k = 0
    · rw [hk0]; simp [MotionVec.dot]
    · exact (hin k (Finset.mem_range.1 hk) hk0).le
  funext ⟨⟨i, hi⟩, ⟨a, ha⟩⟩
  have hij : i < mb.joints.length := by rw [wf.njoints]; exact hi
  have hm : mb.jointMotion (mb.unflat x) i = 0 := by
    have h0 := hz i hi
    cases hp : mb.par i with
    | none => rw [← wf.velAt_none hr hq _ hi hp, h0]
    | some k =>
      have hk := wf.par_lt _ _ hp
      rw [wf.velAt_some hr hq _ hi hp, hz k (by omega)] at h0
      simpa using h0
  have hl : i < (mb.unflat x).length := by rw [hsv.length]; exact hij
  have hlen : ((mb.unflat x)[i]).length = (mb.joints[i]).dof :=
    hsv.get (List.getElem?_eq_getElem hl) (List.getElem?_eq_getElem hij)
  have hm' : applyCols (mb.joints[i]).S (mb.unflat x)[i] = 0 := by
    have : mb.jointMotion (mb.unflat x) i = applyCols (mb.joints[i]).S (mb.unflat x)[i] := by
      simp [MultiBody.jointMotion, MultiBody.SAt, hl, hij]
    rw [← this]; exact hm
  have := (hr.joints _ (List.getElem_mem hij)).subspace_injective (hS _ (List.getElem_mem hij)) hlen hm'
  rw [← MultiBody.entry_unflat x hi ha]
  have hal : a < ((mb.unflat x)[i]).length := by rw [hlen]; simpa [MultiBody.dofAt, hij] using ha
  unfold entry
  rw [List.getElem?_eq_getElem hl, Option.getD_some, List.getD_eq_getElem?_getD, List.getElem?_eq_getElem hal, Option.getD_some]
  exact this _ (List.getElem_mem hal)

/-- The accelerations of the equation of motion, by Cramer's rule. -/
noncomputable def MultiBody.accOf (mb : MultiBody ℝ) (q α τ : List (List ℝ)) (a0 : MotionVec ℝ) (fe : Nat → ForceVec ℝ) : mb.Ix → ℝ :=
  by classical exact (mb.massMat q)⁻¹.mulVec fun x => entry τ x.1 x.2 - mb.biasAt q α a0 fe x.1 x.2

theorem diff_det {W : Type} [NormedAddCommGroup W] [NormedSpace ℝ W] {ι : Type} [Fintype ι] [DecidableEq ι] {M : W → Matrix ι ι ℝ}
    (h : ∀ x y, ContDiff ℝ 1 fun w => M w x y) : ContDiff ℝ 1 fun w => (M w).det := by
  simp only [Matrix.det_apply']
  exact ContDiff.sum fun σ _ => contDiff_const.mul (contDiff_prod fun x _ => h _ _)

theorem diff_inv {W : Type} [NormedAddCommGroup W] [NormedSpace ℝ W] {ι : Type} [Fintype ι] [DecidableEq ι] {M : W → Matrix ι ι ℝ}
    (h : ∀ x y, ContDiff ℝ 1 fun w => M w x y) (hu : ∀ w, IsUnit (M w).det) (x y : ι) : ContDiff ℝ 1 fun w => (M w)⁻¹ x y := by
  have e : ∀ w, (M w)⁻¹ x y = ((M w).det)⁻¹ * ((M w).updateRow y (Pi.single x 1)).det := fun w => by
    rw [Matrix.inv_def, Ring.inverse_eq_inv', Matrix.smul_apply, smul_eq_mul, Matrix.adjugate_apply]
  simp only [e]
  refine ((diff_det h).inv fun w => (hu w).ne_zero).mul (diff_det fun a b => ?_)
  by_cases hab : a = y
  · subst hab
    simp only [Matrix.updateRow_self]
    exact contDiff_const
  · simp only [Matrix.updateRow_ne hab]
    exact h a b

/-- The accelerations are a continuously differentiable function of positions, velocities, torques and forces. -/
theorem DiffPose.accOf {W : Type} [NormedAddCommGroup W] [NormedSpace ℝ W] {Q A U : W → List (List ℝ)} (wf : mb.WF) (hr : mb.Rigid)
    (hv : ∀ w, ValidQ mb (Q w))
    (hI : ∀ b ∈ mb.bodies, ∀ v : MotionVec ℝ, v ≠ 0 → 0 < v.dot (b.inertia.mulMotion v)) (hS : ∀ j ∈ mb.joints, ∀ c ∈ j.S, c ≠ 0)
    (h : DiffPose mb Q) (ha : DiffDof mb A) (hu : DiffDof mb U) (a0 : MotionVec ℝ) {fe : W → Nat → ForceVec ℝ}
    (hf : ∀ k, k < mb.bodies.length → DiffForce fun v => fe v k) : ContDiff ℝ 1 fun w => mb.accOf (Q w) (A w) (U w) a0 (fe w) := by
  classical
  refine contDiff_pi.2 fun x => ?_
  unfold MultiBody.accOf
  simp only [Matrix.mulVec, dotProduct]
  refine ContDiff.sum fun y _ => ContDiff.mul ?_ ((hu.entry wf _ _).sub (h.biasAt wf ha a0 hf _ _))
  have := diff_inv (M := fun w => mb.massMat (Q w)) (fun a b => h.massAt _ _ _ _) (fun w => massMat_regular wf hr (hv w) hI hS) x y
  convert this

theorem DiffDof.accOf {W : Type} [NormedAddCommGroup W] [NormedSpace ℝ W] {Q A U : W → List (List ℝ)} (wf : mb.WF) (hr : mb.Rigid)
    (hs : ∀ j ∈ mb.joints, j.type.Plain) (hv : ∀ w, ValidQ mb (Q w))
    (hI : ∀ b ∈ mb.bodies, ∀ v : MotionVec ℝ, v ≠ 0 → 0 < v.dot (b.inertia.mulMotion v)) (hS : ∀ j ∈ mb.joints, ∀ c ∈ j.S, c ≠ 0)
    (h : DiffDof mb Q) (ha : DiffDof mb A) (hu : DiffDof mb U) (a0 : MotionVec ℝ) {fe : W → Nat → ForceVec ℝ}
    (hf : ∀ k, k < mb.bodies.length → DiffForce fun v => fe v k) : ContDiff ℝ 1 fun w => mb.accOf (Q w) (A w) (U w) a0 (fe w) :=
  DiffPose.accOf wf hr hv hI hS (h.poseAt wf hs) ha hu a0 hf

/-- The equation of motion has exactly one solution. -/
theorem accOf_iff (wf : mb.WF) (hr : mb.Rigid) {q : List (List ℝ)} (hq : ValidQ mb q)
    (hI : ∀ b ∈ mb.bodies, ∀ v : MotionVec ℝ, v ≠ 0 → 0 < v.dot (b.inertia.mulMotion v)) (hS : ∀ j ∈ mb.joints, ∀ c ∈ j.S, c ≠ 0)
    (α τ : List (List ℝ)) (a0 : MotionVec ℝ) (fe : Nat → ForceVec ℝ) (r : List (List ℝ)) :
    (∀ i a, i < mb.bodies.length → a < mb.dofAt i → entry τ i a = ((mb.SAt i).getD a 0).dot (mb.wrenchAt q (mb.netForceAt q α r a0 fe) i)) ↔
      mb.flat r = mb.accOf q α τ a0 fe := by
  classical
  have hu := massMat_regular wf hr hq hI hS
  have e : (∀ i a, i < mb.bodies.length → a < mb.dofAt i → entry τ i a = ((mb.SAt i).getD a 0).dot (mb.wrenchAt q (mb.netForceAt q α r a0 fe) i)) ↔
      (mb.massMat q).mulVec (mb.flat r) = fun x => entry τ x.1 x.2 - mb.biasAt q α a0 fe x.1 x.2 := by
    have key : ∀ x : mb.Ix, (mb.massMat q).mulVec (mb.flat r) x = mb.dofSum fun j b => mb.massAt q x.1 x.2 j b * entry r j b := fun x => by
      rw [MultiBody.dofSum_ix]; rfl
    constructor
    · intro h
      funext x
      rw [key, h _ _ x.1.2 x.2.2, wf.torque_split]
      exact (add_sub_cancel_right _ _).symm
    · intro h i a hi ha
      have := congrFun h ⟨⟨i, hi⟩, ⟨a, ha⟩⟩
      rw [key] at this
      rw [wf.torque_split, this]
      exact (sub_add_cancel _ _).symm
  rw [e]
  have hinst : mb.accOf q α τ a0 fe = (mb.massMat q)⁻¹.mulVec fun x => entry τ x.1 x.2 - mb.biasAt q α a0 fe x.1 x.2 := by
    unfold MultiBody.accOf; congr
  rw [hinst]
  constructor
  · intro h
    rw [← h, Matrix.mulVec_mulVec, Matrix.nonsing_inv_mul _ hu, Matrix.one_mulVec]
  · intro h
    rw [h, Matrix.mulVec_mulVec, Matrix.mul_nonsing_inv _ hu, Matrix.one_mulVec]

end RBDyn
