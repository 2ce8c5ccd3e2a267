import Verif.Props.AllJoints
import Verif.Props.Forever

/-! Property C91, second part: the motions of robots with joints of all types last for ever under torques and forces of linear growth. -/

namespace RBDyn
open scoped Mat3 Topology

/-- In any bounded time the torques of the law grow at most linearly with the joint positions and velocities. -/
def FullLinearLaw (mb : MultiBody ℝ) (law : ℝ → List (List ℝ) → List (List ℝ) → List (List ℝ)) : Prop :=
  ∀ T, ∃ c, ∀ t q α b, |t| ≤ T → ValidQ mb q → SizedDof mb α → (∀ i a, |entry q i a| ≤ b ∧ |entry α i a| ≤ b) →
    ∀ i a, |entry (law t q α) i a| ≤ c * (1 + b)

/-- In any bounded time the forces of the environment, seen by the bodies, grow at most linearly with the joint positions and velocities. -/
def FullLinearForces (mb : MultiBody ℝ) (env : ℝ → List (List ℝ) → List (List ℝ) → List (ForceVec ℝ)) : Prop :=
  ∀ T, ∃ c, ∀ t q α b, |t| ≤ T → ValidQ mb q → SizedDof mb α → (∀ i a, |entry q i a| ≤ b ∧ |entry α i a| ≤ b) →
    ∀ k, k < mb.bodies.length → ((mb.posAt q k).dualMul (((env t q α)[k]?).getD 0)).Small (c * (1 + b))

/-- In any bounded time the forces of the environment, in the frame of the world, are bounded. -/
def FullBoundedForces (mb : MultiBody ℝ) (env : ℝ → List (List ℝ) → List (List ℝ) → List (ForceVec ℝ)) : Prop :=
  ∀ T, ∃ c, ∀ t q α, |t| ≤ T → ValidQ mb q → SizedDof mb α → ∀ k, k < mb.bodies.length → (((env t q α)[k]?).getD 0).Small c

/-- Planar and free joints connect bodies to the world only. -/
def MultiBody.LooseRoots (mb : MultiBody ℝ) : Prop :=
  ∀ i, i < mb.bodies.length → (mb.typeAt i = .Planar ∨ mb.typeAt i = .Free) → mb.par i = none

variable {mb : MultiBody ℝ} {solve : DMat ℝ → List ℝ → List ℝ} {law : ℝ → List (List ℝ) → List (List ℝ) → List (List ℝ)}
  {env : ℝ → List (List ℝ) → List (List ℝ) → List (ForceVec ℝ)} {γ : Vec3 ℝ}

/-! ### The energy bounds the velocities -/

theorem Robot.inertiaAt (R : Robot mb solve) {k : Nat} (hk : k < mb.bodies.length) (v : MotionVec ℝ) (hv : v ≠ 0) :
    0 < v.dot ((mb.inertiaAt k).mulMotion v) := by
  have : mb.inertiaAt k = (mb.bodies[k]).inertia := by simp [MultiBody.inertiaAt, hk]
  rw [this]
  exact R.inertia _ (List.getElem_mem hk) v hv

theorem Robot.kin_term (R : Robot mb solve) {k : Nat} (hk : k < mb.bodies.length) (v : MotionVec ℝ) :
    0 ≤ v.dot ((mb.inertiaAt k).mulMotion v) := by
  by_cases hv : v = 0
  · subst hv
    simp [MotionVec.dot, Vec3.dot]
  · exact (R.inertiaAt hk v hv).le

theorem Robot.kin2_nonneg (R : Robot mb solve) (q α : List (List ℝ)) : 0 ≤ mb.kin2 q α :=
  Finset.sum_nonneg fun _ hk => R.kin_term (Finset.mem_range.1 hk) _

theorem Robot.vel_bound (R : Robot mb solve) :
    ∃ C, 0 ≤ C ∧ ∀ k : Fin mb.bodies.length, ∀ q α, (mb.velAt q α k).Small (C * √(mb.kin2 q α)) := by
  refine exists_bound (fun k b c h hbc q α => (h q α).mono (mul_le_mul_of_nonneg_right hbc (Real.sqrt_nonneg _))) fun k => ?_
  obtain ⟨c, hc, h⟩ := RBInertia.coercive (R.inertiaAt k.2)
  refine ⟨c, fun q α => (h _).mono (mul_le_mul_of_nonneg_left (Real.sqrt_le_sqrt ?_) hc)⟩
  exact Finset.single_le_sum (f := fun k => (mb.velAt q α k).dot ((mb.inertiaAt k).mulMotion (mb.velAt q α k)))
    (fun k hk => R.kin_term (Finset.mem_range.1 hk) _) (Finset.mem_range.2 k.2)

theorem unit_cases {a : Nat} (h : a < 3) : ∃ e : Vec3 ℝ, ∀ x y z : ℝ, (⟨x, y, z⟩ : Vec3 ℝ).dot e = [x, y, z].getD a 0 := by
  rcases a with _ | _ | _ | a
  · exact ⟨⟨1, 0, 0⟩, fun x y z => by simp [Vec3.dot]⟩
  · exact ⟨⟨0, 1, 0⟩, fun x y z => by simp [Vec3.dot]⟩
  · exact ⟨⟨0, 0, 1⟩, fun x y z => by simp [Vec3.dot]⟩
  · omega

/-- For each degree of freedom of a spherical, planar or free joint there is a force whose power along the joint is its velocity; for spherical joints it
is a couple. -/
theorem loose_probe (wf : mb.WF) {i a : Nat} (hi : i < mb.bodies.length) (ha : a < mb.dofAt i) {j : Joint ℝ} (hj : mb.joints[i]? = some j)
    (hb : j.Built) (hty : ¬ j.type.Plain) :
    ∃ φ : ForceVec ℝ, (j.type = .Spherical → φ.force = 0) ∧ ∀ α, SizedDof mb α → (mb.jointMotion α i).dot φ = entry α i a := by
  obtain ⟨t, ax, f, n, hjj⟩ := hb.exists_mk
  have hjS : j.S = Joint.mkS (Joint.sgn f) t ax := by
    rcases hjj with rfl | ⟨mn, m, o, rfl⟩ <;> rfl
  have hjt : j.type = t := by
    rcases hjj with rfl | ⟨mn, m, o, rfl⟩ <;> rfl
  have hjd : mb.dofAt i = Joint.nDof t := by rw [wf.dof_type hi, typeAt_eq hj, hjt]
  have hjm : ∀ α, mb.jointMotion α i = applyCols (Joint.mkS (Joint.sgn f) t ax) ((α[i]?).getD []) := fun α => by
    unfold MultiBody.jointMotion MultiBody.SAt
    rw [hj]
    show applyCols j.S _ = _
    rw [hjS]
  have hlen : ∀ q, SizedDof mb q → ((q[i]?).getD []).length = Joint.nDof t := fun q hq => (hq.getD_length wf hi).trans hjd
  have hent : ∀ α : List (List ℝ), entry α i a = ((α[i]?).getD []).getD a 0 := fun _ => rfl
  have hsq := Joint.sgn_sq (K := ℝ) f
  rw [hjd] at ha
  rw [hjt] at hty ⊢
  generalize Joint.sgn (K := ℝ) f = s at hsq hjm
  cases t <;> simp [JointType.Plain] at hty
  · have h3 : a < 3 := ha
    obtain ⟨e, he⟩ := unit_cases h3
    refine ⟨⟨s • e, 0⟩, fun _ => rfl, fun α hα => ?_⟩
    obtain ⟨x, y, z, hl⟩ : ∃ x y z, (α[i]?).getD [] = [x, y, z] := ⟨_, _, _, list_three (hlen α hα)⟩
    rw [hjm, hent, hl, ← he]
    simp [applyCols, Joint.mkS, MotionVec.dot, Vec3.dot]
    linear_combination hsq * (x * e.x + y * e.y + z * e.z)
  · have h3 : a < 3 := ha
    obtain ⟨e, he⟩ := unit_cases h3
    refine ⟨⟨⟨0, 0, s * e.x⟩, ⟨s * e.y, s * e.z, 0⟩⟩, by simp, fun α hα => ?_⟩
    obtain ⟨x, y, z, hl⟩ : ∃ x y z, (α[i]?).getD [] = [x, y, z] := ⟨_, _, _, list_three (hlen α hα)⟩
    rw [hjm, hent, hl, ← he]
    simp [applyCols, Joint.mkS, MotionVec.dot, Vec3.dot]
    linear_combination hsq * (x * e.x + y * e.y + z * e.z)
  · have h6 : a < 6 := ha
    have hl : ∀ α, SizedDof mb α → ∃ x y z u v w, (α[i]?).getD [] = [x, y, z, u, v, w] := fun α hα => ⟨_, _, _, _, _, _, list_six (hlen α hα)⟩
    by_cases h3 : a < 3
    · obtain ⟨e, he⟩ := unit_cases h3
      refine ⟨⟨s • e, 0⟩, by simp, fun α hα => ?_⟩
      obtain ⟨x, y, z, u, v, w, hl⟩ := hl α hα
      have e1 : [x, y, z, u, v, w].getD a 0 = [x, y, z].getD a 0 := by
        rcases a with _ | _ | _ | a
        · rfl
        · rfl
        · rfl
        · omega
      rw [hjm, hent, hl, e1, ← he]
      simp [applyCols, Joint.mkS, MotionVec.dot, Vec3.dot]
      linear_combination hsq * (x * e.x + y * e.y + z * e.z)
    · obtain ⟨b, rfl⟩ : ∃ b, a = b + 3 := ⟨a - 3, by omega⟩
      obtain ⟨e, he⟩ := unit_cases (show b < 3 by omega)
      refine ⟨⟨0, s • e⟩, by simp, fun α hα => ?_⟩
      obtain ⟨x, y, z, u, v, w, hl⟩ := hl α hα
      have e1 : [x, y, z, u, v, w].getD (b + 3) 0 = [u, v, w].getD b 0 := rfl
      rw [hjm, hent, hl, e1, ← he]
      simp [applyCols, Joint.mkS, MotionVec.dot, Vec3.dot]
      linear_combination hsq * (u * e.x + v * e.y + w * e.z)

theorem MultiBody.Rigid.XtAt (hr : mb.Rigid) (i : Nat) : IsRigid (mb.XtAt i) := by
  unfold MultiBody.XtAt
  cases h : mb.Xt[i]? with
  | none => exact IsRigid.one
  | some X => exact hr.Xt _ (List.mem_of_getElem? h)

/-- The joint velocities are bounded by the root of the energy. -/
theorem Robot.entry_bound (R : Robot mb solve) (hroot : mb.LooseRoots) :
    ∃ C, 0 ≤ C ∧ ∀ x : mb.Ix, ∀ q α, ValidQ mb q → SizedDof mb α → |entry α x.1 x.2| ≤ C * √(mb.kin2 q α) := by
  obtain ⟨C, hC, hv⟩ := R.vel_bound
  refine exists_bound (fun x b c h hbc q α hq ha => (h q α hq ha).trans (mul_le_mul_of_nonneg_right hbc (Real.sqrt_nonneg _))) fun x => ?_
  obtain ⟨⟨i, hi⟩, ⟨a, ha⟩⟩ := x
  obtain ⟨j, hj, -⟩ := R.wf.joint_get hi
  have hm := List.mem_of_getElem? hj
  have hX := R.rigid.XtAt i
  -- a force whose power along the joint is the velocity, and a bound for its power along the velocity of the parent
  have key : ∃ (φ : ForceVec ℝ) (e : ℝ), 0 ≤ e ∧ (∀ α, SizedDof mb α → (mb.jointMotion α i).dot φ = entry α i a) ∧
      ∀ p, mb.par i = some p → ∀ q, ValidQ mb q → ∀ b v, MotionVec.Small b v → |((mb.ptsAt q i).mulMotion v).dot φ| ≤ e * b := by
    by_cases hty : j.type.Plain
    · obtain ⟨φ, h1, h2⟩ := axis_probe R.wf R.rigid R.subspace hi ha hj hty
      obtain ⟨d, hd, hφ⟩ := ForceVec.small_exists φ
      obtain ⟨e, he, hXt⟩ := PTransform.small_mulMotion hX
      refine ⟨φ, 6 * (e * d), by positivity, h2, fun p hp q hq b v hb => ?_⟩
      have hsq := hq.sizes R.wf
      have hlen : ((q[i]?).getD []).length = mb.dofAt i := by
        rw [hsq.getD_length R.wf hi, R.wf.params_type hi, R.wf.dof_type hi, typeAt_eq hj]
        rcases hty with e | e | e | e <;> rw [e] <;> rfl
      unfold MultiBody.ptsAt
      rw [PTransform.mul_mulMotion _ _ _ hX, h1 q (by rw [hsq.length, R.wf.njoints]; exact hi) hlen]
      exact ((hXt b v hb).dot hφ).trans (le_of_eq (by ring))
    · obtain ⟨φ, h1, h2⟩ := loose_probe R.wf hi ha hj (R.wf.built j hm) hty
      obtain ⟨d, hd, hφ⟩ := ForceVec.small_exists φ
      refine ⟨φ, 9 * d, by positivity, h2, fun p hp q hq b v hb => ?_⟩
      have hs : j.type = .Spherical := by
        have := hroot i hi
        rw [typeAt_eq hj, hp] at this
        revert hty this
        cases j.type <;> simp [JointType.Plain]
      have hE : IsRot (mb.ptsAt q i).E := mb.ptsAt_rigid R.rigid hq i
      have h3 := (IsRot.small hE hb.1).dot hφ.1
      have h4 : ((mb.ptsAt q i).mulMotion v).dot φ = ((mb.ptsAt q i).E *ᵥ v.ang).dot φ.couple := by
        rw [MotionVec.dot, h1 hs]
        show ((mb.ptsAt q i).E *ᵥ v.ang).dot φ.couple + _ = _
        simp [Vec3.dot]
      rw [h4]
      exact h3.trans (le_of_eq (by ring))
  obtain ⟨φ, e, he, h1, h2⟩ := key
  obtain ⟨d, hd, hφ⟩ := ForceVec.small_exists φ
  refine ⟨6 * (C * d) + e * C, fun q α hq hα => ?_⟩
  have hvi := hv ⟨i, hi⟩ q α
  dsimp only at hvi
  have n1 := hvi.dot hφ
  have hs := Real.sqrt_nonneg (mb.kin2 q α)
  rw [← h1 α hα]
  cases hp : mb.par i with
  | none =>
    rw [R.wf.velAt_none R.rigid hq α hi hp] at n1
    have : 0 ≤ e * C * √(mb.kin2 q α) := by positivity
    nlinarith
  | some p =>
    have hpl := R.wf.par_lt _ _ hp
    have e1 : mb.jointMotion α i = mb.velAt q α i - (mb.ptsAt q i).mulMotion (mb.velAt q α p) := by
      rw [R.wf.velAt_some R.rigid hq α hi hp]
      ext <;> simp
    have n2 := h2 p hp q hq _ _ (hv ⟨p, by omega⟩ q α)
    rw [e1, MotionVec.sub_dot]
    refine (abs_sub _ _).trans ?_
    nlinarith

/-! ### The rates of the energy and of the positions -/

/-- The rate of change of the energy is the power of the torques, the weights and the external forces. -/
theorem Robot.kin2_rate (R : Robot mb solve) (hd : mb.DirOK) {x : ℝ → mb.FullSpace} {w : mb.FullSpace} {t : ℝ} (h0 : x t = w) (hw : w ∈ mb.UnitSpace)
    (hx : HasDerivAt x (fullFlow mb law env γ w) t) :
    HasDerivAt (fun s => mb.kin2 (mb.unitQ (mb.unflatQ (x s).2.1)) (mb.unflat (x s).2.2))
      (2 * (∑ y : mb.Ix, w.2.2 y * entry (law w.1 (mb.unflatQ w.2.1) (mb.unflat w.2.2)) y.1 y.2 +
        ∑ k ∈ Finset.range mb.bodies.length, (mb.velAt (mb.unflatQ w.2.1) (mb.unflat w.2.2) k).dot
          ((mb.posAt (mb.unflatQ w.2.1) k).dualMul (((env w.1 (mb.unflatQ w.2.1) (mb.unflat w.2.2))[k]?).getD 0)) -
        ∑ k ∈ Finset.range mb.bodies.length, (mb.velAt (mb.unflatQ w.2.1) (mb.unflat w.2.2) k).dot
          ((mb.inertiaAt k).mulMotion ((mb.posAt (mb.unflatQ w.2.1) k).mulMotion ⟨0, γ⟩)))) t := by
  rw [fullFlow_unit R.wf hw] at hx
  have hm : Trajectory mb (fun s => mb.unitQ (mb.unflatQ (x s).2.1)) ((fun s => mb.unflat (x s).2.2) t) t := by
    refine R.moves (by rw [h0]; exact hw) ?_
    rw [h0]
    exact ((ContinuousLinearMap.fst ℝ (mb.Px → ℝ) (mb.Ix → ℝ)).comp
      (ContinuousLinearMap.snd ℝ ℝ ((mb.Px → ℝ) × (mb.Ix → ℝ)))).hasFDerivAt.comp_hasDerivAt t hx
  have ha : HasDerivDof mb (fun s => mb.unflat (x s).2.2) (mb.unflat (accelUnit mb law env γ w)) t :=
    R.rates (((ContinuousLinearMap.snd ℝ (mb.Px → ℝ) (mb.Ix → ℝ)).comp
      (ContinuousLinearMap.snd ℝ ℝ ((mb.Px → ℝ) × (mb.Ix → ℝ)))).hasFDerivAt.comp_hasDerivAt t hx)
  have hk := fun k (hk : k ∈ Finset.range mb.bodies.length) => mb.kinetic_hasDeriv R.wf R.rigid hd hm ha (Finset.mem_range.1 hk)
  refine (HasDerivAt.finset_sum hk).congr_deriv ?_
  have hq0 : mb.unitQ (mb.unflatQ w.2.1) = mb.unflatQ w.2.1 := unitQ_of_valid R.wf hw
  have hacc : accelUnit mb law env γ w = mb.accOf (mb.unflatQ w.2.1) (mb.unflat w.2.2) (law w.1 (mb.unflatQ w.2.1) (mb.unflat w.2.2)) ⟨0, γ⟩
      fun k => ((env w.1 (mb.unflatQ w.2.1) (mb.unflat w.2.2))[k]?).getD 0 := by
    unfold accelUnit
    rw [hq0]
  rw [h0, hq0, hacc]
  set q := mb.unflatQ w.2.1
  set α := mb.unflat w.2.2 with hα
  set fe := fun k : Nat => ((env w.1 q α)[k]?).getD 0
  set r := mb.unflat (mb.accOf q α (law w.1 q α) ⟨0, γ⟩ fe)
  have ht := (accOf_iff R.wf R.rigid hw R.inertia R.subspace α (law w.1 q α) ⟨0, γ⟩ fe r).2 (MultiBody.flat_unflat _)
  have hp : ∑ y : mb.Ix, w.2.2 y * entry (law w.1 q α) y.1 y.2 =
      ∑ k ∈ Finset.range mb.bodies.length, (mb.velAt q α k).dot (mb.netForceAt q α r ⟨0, γ⟩ fe k) := by
    rw [← R.wf.power, MultiBody.dofSum_ix]
    refine Finset.sum_congr rfl fun y _ => ?_
    rw [ht _ _ y.1.2 y.2.2, hα, MultiBody.entry_unflat _ y.1.2 y.2.2]
  rw [hp, ← Finset.sum_add_distrib, ← Finset.sum_sub_distrib, Finset.mul_sum]
  refine Finset.sum_congr rfl fun k _ => ?_
  rw [MultiBody.netForceAt, mb.accAt_base q α r ⟨0, γ⟩, RBInertia.mulMotion_add, MotionVec.dot_sub, MotionVec.dot_add, MotionVec.dot_add,
    MotionVec.dot_add]
  ring

/-- The sum of the squares of the parameters of a joint changes at most with the product of the sizes of its position and its velocity. -/
theorem block_rate {t : JointType} {q α : List ℝ} (hv : ValidParam t q) (hα : α.length = Joint.nDof t) {b c : ℝ} (hq : ∀ a, |q.getD a 0| ≤ b)
    (ha : ∀ a, |α.getD a 0| ≤ c) : |∑ a ∈ Finset.range (Joint.nParams t), q.getD a 0 * (coordRate t q α).getD a 0| ≤ 9 * (b * c) := by
  have hb : 0 ≤ b := (abs_nonneg _).trans (hq 0)
  have hc : 0 ≤ c := (abs_nonneg _).trans (ha 0)
  have hbc : 0 ≤ b * c := mul_nonneg hb hc
  have h1 : ∀ a, |q.getD a 0 * α.getD a 0| ≤ b * c := fun a => abs_mul_le (hq a) (ha a)
  have h2 : ∀ n, n ≤ 9 → |∑ a ∈ Finset.range n, q.getD a 0 * α.getD a 0| ≤ 9 * (b * c) := fun n hn => by
    refine (Finset.abs_sum_le_sum_abs _ _).trans ((Finset.sum_le_sum fun a _ => h1 a).trans ?_)
    rw [Finset.sum_const, Finset.card_range, nsmul_eq_mul]
    exact mul_le_mul_of_nonneg_right (by exact_mod_cast hn) hbc
  by_cases ht : t.Plain
  · rw [coordRate_plain ht]
    exact h2 _ (by rcases ht with e | e | e | e <;> rw [e] <;> decide)
  · have hl := hv.1
    cases t <;> simp [JointType.Plain] at ht
    · have := coordRate_quat (.inl rfl) hl hα
      have e : ∑ a ∈ Finset.range (Joint.nParams .Spherical), q.getD a 0 * (coordRate .Spherical q α).getD a 0 = 0 := by
        simp only [Joint.nParams, Finset.sum_range_succ, Finset.sum_range_zero, zero_add]
        exact this
      rw [e, abs_zero]
      positivity
    · have e : ∑ a ∈ Finset.range (Joint.nParams .Planar), q.getD a 0 * (coordRate .Planar q α).getD a 0 = ∑ a ∈ Finset.range 3, q.getD a 0 * α.getD a 0 := by
        obtain ⟨x, y, z, e1⟩ : ∃ x y z, q = [x, y, z] := ⟨_, _, _, list_three hl⟩
        obtain ⟨u, v, w, e2⟩ : ∃ x y z, α = [x, y, z] := ⟨_, _, _, list_three hα⟩
        rw [e1, e2]
        simp [coordRate, Joint.nParams, Finset.sum_range_succ]
        ring
      rw [e]
      exact h2 3 (by decide)
    · have h0 := coordRate_quat (.inr rfl) hl hα
      obtain ⟨w, x, y, z, a, b', c', e1⟩ : ∃ w x y z a b c, q = [w, x, y, z, a, b, c] := ⟨_, _, _, _, _, _, _, list_seven hl⟩
      obtain ⟨p, p', p'', u, u', u'', e2⟩ : ∃ w x y z a b, α = [w, x, y, z, a, b] := ⟨_, _, _, _, _, _, list_six hα⟩
      have hu : Quat.normSq (⟨w, x, y, z⟩ : Quat ℝ) = 1 := by
        have := hv.2
        rw [e1] at this
        exact this
      have hR := Joint.isRot_toRot hu
      have e : ∑ a ∈ Finset.range (Joint.nParams .Free), q.getD a 0 * (coordRate .Free q α).getD a 0 =
          (⟨a, b', c'⟩ : Vec3 ℝ).dot (Quat.toRot ⟨w, x, y, z⟩ *ᵥ ⟨u, u', u''⟩) := by
        simp only [Joint.nParams, Finset.sum_range_succ, Finset.sum_range_zero, zero_add]
        rw [h0, zero_add, e1, e2]
        simp only [coordRate, List.cons_append, List.nil_append, Vec3.dot]
        simp
      rw [e]
      have k1 : (⟨a, b', c'⟩ : Vec3 ℝ).Small b := by
        have q4 := hq 4
        have q5 := hq 5
        have q6 := hq 6
        rw [e1] at q4 q5 q6
        exact ⟨q4, q5, q6⟩
      have k2 : (⟨u, u', u''⟩ : Vec3 ℝ).Small c := by
        have q4 := ha 3
        have q5 := ha 4
        have q6 := ha 5
        rw [e2] at q4 q5 q6
        exact ⟨q4, q5, q6⟩
      exact (k1.dot (IsRot.small hR k2)).trans (le_of_eq (by ring))

/-! ### The measure of a state -/

/-- Twice the kinetic energy plus the squares of the joint parameters. -/
noncomputable def MultiBody.fullMeasure (mb : MultiBody ℝ) (w : mb.FullSpace) : ℝ :=
  mb.kin2 (mb.unitQ (mb.unflatQ w.2.1)) (mb.unflat w.2.2) + ∑ y : mb.Px, w.2.1 y ^ 2

theorem Robot.measure_nonneg (R : Robot mb solve) (w : mb.FullSpace) : 0 ≤ mb.fullMeasure w :=
  add_nonneg (R.kin2_nonneg _ _) (Finset.sum_nonneg fun _ _ => sq_nonneg _)

theorem Robot.measure_diff (R : Robot mb solve) {w : mb.FullSpace} (hw : w ∈ mb.UnitSpace) : DifferentiableAt ℝ mb.fullMeasure w := by
  have : ContDiffAt ℝ 1 mb.fullMeasure w := by
    refine contDiffAt_of_localised (quatProd_open R.wf) (fun β hβ h0 => ?_) (by show mb.quatProd w ≠ 0; rw [quatProd_unit R.wf hw]; exact one_ne_zero)
    have hq := unitPose_diff R.wf R.rigid hβ h0
    have ha : DiffDof mb fun w => mb.unflat (β w).2.2 := .unflat R.wf ((contDiff_snd.comp contDiff_snd).comp hβ)
    unfold MultiBody.fullMeasure MultiBody.kin2
    refine ContDiff.add (ContDiff.sum fun k _ => ?_) (ContDiff.sum fun y _ => ?_)
    · exact (DiffPose.velAt R.wf hq ha k).dot ((DiffPose.velAt R.wf hq ha k).inertia _)
    · exact ((contDiff_apply ℝ ℝ y).comp ((contDiff_fst.comp contDiff_snd).comp hβ)).pow 2
  exact this.differentiableAt one_ne_zero

theorem Robot.sqrt_kin2 (R : Robot mb solve) {w : mb.FullSpace} (hw : w ∈ mb.UnitSpace) :
    √(mb.kin2 (mb.unflatQ w.2.1) (mb.unflat w.2.2)) ≤ √(mb.fullMeasure w) := by
  unfold MultiBody.fullMeasure
  rw [unitQ_of_valid R.wf hw]
  exact Real.sqrt_le_sqrt (le_add_of_nonneg_right (Finset.sum_nonneg fun _ _ => sq_nonneg _))

theorem Robot.pos_bound (R : Robot mb solve) (w : mb.FullSpace) (y : mb.Px) : |w.2.1 y| ≤ √(mb.fullMeasure w) := by
  rw [← Real.sqrt_sq_eq_abs]
  refine Real.sqrt_le_sqrt (le_add_of_nonneg_of_le (R.kin2_nonneg _ _) ?_)
  exact Finset.single_le_sum (f := fun y => w.2.1 y ^ 2) (fun _ _ => sq_nonneg _) (Finset.mem_univ y)

/-- All entries of a state are bounded by the root of its measure. -/
theorem Robot.state_bound (R : Robot mb solve) (hroot : mb.LooseRoots) : ∃ D, 0 ≤ D ∧ ∀ w ∈ mb.UnitSpace, ∀ i a,
    |entry (mb.unflatQ w.2.1) i a| ≤ D * √(mb.fullMeasure w) ∧ |entry (mb.unflat w.2.2) i a| ≤ D * √(mb.fullMeasure w) := by
  obtain ⟨C, hC, h⟩ := R.entry_bound hroot
  refine ⟨1 + C, by positivity, fun w hw i a => ?_⟩
  have hs := Real.sqrt_nonneg (mb.fullMeasure w)
  have hp : 0 ≤ C * √(mb.fullMeasure w) := by positivity
  refine ⟨?_, ?_⟩
  · by_cases hc : i < mb.bodies.length ∧ a < mb.paramsAt i
    · have := R.pos_bound w ⟨⟨i, hc.1⟩, ⟨a, hc.2⟩⟩
      rw [entry_unflatQ _ hc.1 hc.2]
      linarith
    · rw [entry_beyondQ R.wf (unflatQ_sized R.wf _) hc, abs_zero]
      positivity
  · by_cases hc : i < mb.bodies.length ∧ a < mb.dofAt i
    · have h1 := h ⟨⟨i, hc.1⟩, ⟨a, hc.2⟩⟩ (mb.unflatQ w.2.1) (mb.unflat w.2.2) hw (mb.unflat_sized R.wf _)
      have h2 := mul_le_mul_of_nonneg_left (R.sqrt_kin2 hw) hC
      dsimp only at h1
      linarith
    · rw [entry_beyond R.wf (mb.unflat_sized R.wf _) hc, abs_zero]
      positivity

/-- States of bounded measure are bounded. -/
theorem Robot.measure_bounds (R : Robot mb solve) (hroot : mb.LooseRoots) (B : ℝ) :
    ∃ r, ∀ w ∈ mb.UnitSpace, mb.fullMeasure w ≤ B → ‖w.2‖ ≤ r := by
  obtain ⟨D, hD, h⟩ := R.state_bound hroot
  refine ⟨D * √B, fun w hu hw => ?_⟩
  have hs : D * √(mb.fullMeasure w) ≤ D * √B := mul_le_mul_of_nonneg_left (Real.sqrt_le_sqrt hw) hD
  have h0 : 0 ≤ D * √B := by positivity
  rw [Prod.norm_def]
  refine max_le ((pi_norm_le_iff_of_nonneg h0).2 fun y => ?_) ((pi_norm_le_iff_of_nonneg h0).2 fun y => ?_)
  · have := (h w hu y.1 y.2).1
    rw [entry_unflatQ _ y.1.2 y.2.2] at this
    exact this.trans hs
  · have := (h w hu y.1 y.2).2
    rw [MultiBody.entry_unflat _ y.1.2 y.2.2] at this
    exact this.trans hs

/-- The measure of a state grows at most exponentially. -/
theorem Robot.measure_rate (R : Robot mb solve) (hroot : mb.LooseRoots) (hd : mb.DirOK) (hl : FullLinearLaw mb law) (he : FullLinearForces mb env)
    (γ : Vec3 ℝ) (T : ℝ) :
    ∃ C, ∀ w ∈ mb.UnitSpace, |w.1| ≤ T → |fderiv ℝ mb.fullMeasure w (fullFlow mb law env γ w)| ≤ C * (1 + mb.fullMeasure w) := by
  obtain ⟨D, hD, hst⟩ := R.state_bound hroot
  obtain ⟨V, hV, hvel⟩ := R.vel_bound
  set S : Set mb.FullSpace := {w | w ∈ mb.UnitSpace ∧ |w.1| ≤ T}
  set s : mb.FullSpace → ℝ := fun w => √(mb.fullMeasure w)
  have hs0 : ∀ w, 0 ≤ s w := fun w => Real.sqrt_nonneg _
  have ha : ∀ y : mb.Ix, Ord1 S s fun w => w.2.2 y := fun y => ⟨D, hD, fun w hw => by
    have := (hst w hw.1 y.1 y.2).2
    rw [MultiBody.entry_unflat _ y.1.2 y.2.2] at this
    refine this.trans (mul_le_mul_of_nonneg_left ?_ hD)
    show s w ≤ _
    linarith⟩
  have grow : ∀ c w, |c| * (1 + D) * (1 + s w) ≥ c * (1 + D * s w) := fun c w => by
    have h1 : c ≤ |c| := le_abs_self c
    have h2 := hs0 w
    have h3 : 0 ≤ 1 + D * s w := by positivity
    have h4 : 1 + D * s w ≤ (1 + D) * (1 + s w) := by nlinarith
    calc |c| * (1 + D) * (1 + s w) = |c| * ((1 + D) * (1 + s w)) := by ring
      _ ≥ |c| * (1 + D * s w) := mul_le_mul_of_nonneg_left h4 (abs_nonneg _)
      _ ≥ c * (1 + D * s w) := mul_le_mul_of_nonneg_right h1 h3
  have ht : ∀ y : mb.Ix, Ord1 S s fun w => entry (law w.1 (mb.unflatQ w.2.1) (mb.unflat w.2.2)) y.1 y.2 := fun y => by
    obtain ⟨c, hc⟩ := hl T
    exact ⟨|c| * (1 + D), by positivity, fun w hw => (hc w.1 _ _ (D * s w) hw.2 hw.1 (mb.unflat_sized R.wf _) (hst w hw.1) _ _).trans (grow c w)⟩
  have hf : ∀ k, k < mb.bodies.length → OrdForce S s fun w =>
      (mb.posAt (mb.unflatQ w.2.1) k).dualMul (((env w.1 (mb.unflatQ w.2.1) (mb.unflat w.2.2))[k]?).getD 0) := fun k hk => by
    obtain ⟨c, hc⟩ := he T
    exact ⟨|c| * (1 + D), by positivity, fun w hw =>
      (hc w.1 _ _ (D * s w) hw.2 hw.1 (mb.unflat_sized R.wf _) (hst w hw.1) k hk).mono (grow c w)⟩
  have hv : ∀ k, k < mb.bodies.length → OrdMotion S s fun w => mb.velAt (mb.unflatQ w.2.1) (mb.unflat w.2.2) k := fun k hk =>
    ⟨V, hV, fun w hw => (hvel ⟨k, hk⟩ _ _).mono (mul_le_mul_of_nonneg_left ((R.sqrt_kin2 hw.1).trans (by show s w ≤ _; linarith)) hV)⟩
  have hg : ∀ k, OrdForce S s fun w => (mb.inertiaAt k).mulMotion ((mb.posAt (mb.unflatQ w.2.1) k).mulMotion ⟨0, γ⟩) := fun k => by
    obtain ⟨c, hc, hI⟩ := RBInertia.small_mulMotion (mb.inertiaAt k)
    have h3 := Vec3.small_exists γ
    have h4 := h3.nonneg
    refine ⟨c * (3 * (|γ.x| + |γ.y| + |γ.z|)), by positivity, fun w hw => ?_⟩
    have hr := mb.posAt_rigid R.rigid hw.1 k
    refine (hI (3 * (|γ.x| + |γ.y| + |γ.z|)) _ ⟨?_, ?_⟩).mono (le_mul_of_one_le_right (by positivity) (by linarith [hs0 w]))
    · refine IsRot.small hr (b := |γ.x| + |γ.y| + |γ.z|) (v := 0) ?_
      simpa [Vec3.Small] using h4
    · have e : γ - (mb.posAt (mb.unflatQ w.2.1) k).r.cross 0 = γ := by ext <;> simp
      show ((mb.posAt (mb.unflatQ w.2.1) k).E *ᵥ (γ - (mb.posAt (mb.unflatQ w.2.1) k).r.cross 0)).Small _
      rw [e]
      exact IsRot.small hr h3
  have hb : ∀ i : Fin mb.bodies.length, Ord2 S s fun w => ∑ a : Fin (mb.paramsAt i), w.2.1 ⟨i, a⟩ * mb.coordRateAt w i a := fun i => by
    refine ⟨9 * (D * D), by positivity, fun w hw => ?_⟩
    obtain ⟨j, hj, -⟩ := R.wf.joint_get i.2
    obtain ⟨l, hl1, hl2⟩ := ValidQ.param hw.1 hj
    have e : ∑ a : Fin (mb.paramsAt i), w.2.1 ⟨i, a⟩ * mb.coordRateAt w i a =
        ∑ a ∈ Finset.range (Joint.nParams (mb.typeAt i)), (((mb.unflatQ w.2.1)[i.1]?).getD []).getD a 0 *
          (coordRate (mb.typeAt i) (((mb.unflatQ w.2.1)[i.1]?).getD []) (((mb.unflat w.2.2)[i.1]?).getD [])).getD a 0 := by
      rw [← R.wf.params_type i.2, Finset.sum_range]
      refine Finset.sum_congr rfl fun a _ => ?_
      rw [← entry_unflatQ w.2.1 i.2 a.2]
      rfl
    show |∑ a : Fin (mb.paramsAt i), w.2.1 ⟨i, a⟩ * mb.coordRateAt w i a| ≤ _
    rw [e]
    refine (block_rate (b := D * s w) (c := D * s w) ?_ ?_ (fun a => (hst w hw.1 i a).1) fun a => (hst w hw.1 i a).2).trans ?_
    · rw [hl1, typeAt_eq hj]
      exact hl2
    · rw [(mb.unflat_sized R.wf _).getD_length R.wf i.2, R.wf.dof_type i.2]
    · have : 0 ≤ 9 * (D * D) := by positivity
      nlinarith
  have main : Ord2 S s fun w => 2 * (∑ y : mb.Ix, w.2.2 y * entry (law w.1 (mb.unflatQ w.2.1) (mb.unflat w.2.2)) y.1 y.2 +
        ∑ k ∈ Finset.range mb.bodies.length, (mb.velAt (mb.unflatQ w.2.1) (mb.unflat w.2.2) k).dot
          ((mb.posAt (mb.unflatQ w.2.1) k).dualMul (((env w.1 (mb.unflatQ w.2.1) (mb.unflat w.2.2))[k]?).getD 0)) -
        ∑ k ∈ Finset.range mb.bodies.length, (mb.velAt (mb.unflatQ w.2.1) (mb.unflat w.2.2) k).dot
          ((mb.inertiaAt k).mulMotion ((mb.posAt (mb.unflatQ w.2.1) k).mulMotion ⟨0, γ⟩))) +
      ∑ i : Fin mb.bodies.length, 2 * ∑ a : Fin (mb.paramsAt i), w.2.1 ⟨i, a⟩ * mb.coordRateAt w i a := by
    refine Ord2.add (Ord2.const_mul (Ord2.sub (Ord2.add (Ord2.sum _ fun y _ => (ha y).mul (ht y)) (Ord2.sum _ fun k hk => ?_))
      (Ord2.sum _ fun k hk => ?_)) 2) (Ord2.sum _ fun i _ => (hb i).const_mul 2)
    · exact (hv k (Finset.mem_range.1 hk)).dot (hf k (Finset.mem_range.1 hk))
    · exact (hv k (Finset.mem_range.1 hk)).dot (hg k)
  obtain ⟨C, -, hC⟩ := main
  refine ⟨C, fun w hu hw => ?_⟩
  have h1 := hC w ⟨hu, hw⟩
  rw [show s w ^ 2 = mb.fullMeasure w from Real.sq_sqrt (R.measure_nonneg w)] at h1
  have hx : HasDerivAt (fun u : ℝ => w + u • fullFlow mb law env γ w) (fullFlow mb law env γ w) 0 := by
    simpa using ((hasDerivAt_id (0 : ℝ)).smul_const (fullFlow mb law env γ w)).const_add w
  have h0 : (fun u : ℝ => w + u • fullFlow mb law env γ w) 0 = w := by simp
  have hk := R.kin2_rate hd h0 hu hx
  have hp : HasDerivAt (fun u : ℝ => ∑ y : mb.Px, ((fun u : ℝ => w + u • fullFlow mb law env γ w) u).2.1 y ^ 2)
      (∑ i : Fin mb.bodies.length, 2 * ∑ a : Fin (mb.paramsAt i), w.2.1 ⟨i, a⟩ * mb.coordRateAt w i a) 0 := by
    have e : ∑ i : Fin mb.bodies.length, 2 * ∑ a : Fin (mb.paramsAt i), w.2.1 ⟨i, a⟩ * mb.coordRateAt w i a =
        ∑ y : mb.Px, 2 * (w.2.1 y * mb.coordRateAt w y.1 y.2) := by
      rw [Fintype.sum_sigma]
      simp only [Finset.mul_sum]
    rw [e]
    refine HasDerivAt.fun_sum fun y _ => ?_
    have h2 : HasDerivAt (fun u : ℝ => ((fun u : ℝ => w + u • fullFlow mb law env γ w) u).2.1 y) (mb.coordRateAt w y.1 y.2) 0 :=
      hasDerivAt_pi.1 (((ContinuousLinearMap.fst ℝ (mb.Px → ℝ) (mb.Ix → ℝ)).comp
        (ContinuousLinearMap.snd ℝ ℝ ((mb.Px → ℝ) × (mb.Ix → ℝ)))).hasFDerivAt.comp_hasDerivAt 0 hx) y
    refine (h2.pow 2).congr_deriv ?_
    rw [h0]
    simp
    ring
  have hd' := ((R.measure_diff hu).hasFDerivAt).comp_hasDerivAt_of_eq (0 : ℝ) hx h0.symm
  rw [hd'.unique (hk.add hp)]
  exact h1

/-! ### Motions for all times -/

/-- C91: when the control law and the environment are continuously differentiable and, in any bounded time, grow at most linearly, a robot whose planar and
free joints are at the root and whose spherical, planar and free joints are forward has from all joint positions with unit quaternions, all velocities
and at every time a motion that lasts for ever, in the past and in the future. -/
theorem C91_forever (R : Robot mb solve) (hroot : mb.LooseRoots) (hd : mb.DirOK) (hl : FullLaw mb law) (he : FullForces mb env)
    (hll : FullLinearLaw mb law) (hle : FullLinearForces mb env) (γ : Vec3 ℝ) {q₀ α₀ : List (List ℝ)} (hq : ValidQ mb q₀) (ha : SizedDof mb α₀) (t₀ : ℝ) :
    ∃ mbc : ℝ → MBC ℝ, (mbc t₀).q = q₀ ∧ (mbc t₀).alpha = α₀ ∧ Motion mb solve law env γ Set.univ mbc := by
  have hw0 : ((t₀, mb.flatQ q₀, mb.flat α₀) : mb.FullSpace) ∈ mb.UnitSpace := by
    show ValidQ mb (mb.unflatQ (mb.flatQ q₀))
    rw [unflatQ_flatQ R.wf (hq.sizes R.wf)]
    exact hq
  obtain ⟨x, hx0, hx⟩ := solution_global_on (fullFlow_diff R hl he γ) (fun _ => rfl) (S := mb.UnitSpace)
    (fun f x a b t₀ h1 h2 h3 t ht => unitSpace_stays R.wf h1 h2 h3 ht) (fun w hw => R.measure_diff hw) R.measure_nonneg (R.measure_bounds hroot)
    (R.measure_rate hroot hd hll hle γ) hw0
  dsimp only at hx0
  have hu : ∀ t, x t ∈ mb.UnitSpace := fun t =>
    unitSpace_stays R.wf (f := fun _ => 1) (a := min t t₀ - 1) (b := max t t₀ + 1) (t₀ := t₀)
      ⟨by linarith [min_le_right t t₀], by linarith [le_max_right t t₀]⟩ (by rw [hx0]; exact hw0) (fun t _ => by rw [one_smul]; exact hx t)
      ⟨by linarith [min_le_left t t₀], by linarith [le_max_left t t₀]⟩
  obtain ⟨mbc, h1, h2⟩ := Motion.of_fullFlow R hl he (I := Set.univ) (fun t _ => hu t) (fun t _ => hx t) fun t _ =>
    fullFlow_time isOpen_univ convex_univ (fun t _ => hx t) (t₀ := t₀) trivial (by rw [hx0]) trivial
  refine ⟨mbc, ?_, ?_, h2⟩
  · rw [(h1 t₀ trivial).1, hx0, unflatQ_flatQ R.wf (hq.sizes R.wf)]
  · rw [(h1 t₀ trivial).2, hx0, MultiBody.unflat_flat R.wf ha]

/-! ### Bounded forces -/

theorem PTransform.inv_reach {X : PTransform ℝ} (hX : IsRot X.E) {b : ℝ} (h : X.r.Small b) (f : Bool) (hd : Joint.sgn (K := ℝ) f = 1 ∨ ¬ Joint.sgn (K := ℝ) f = 1) :
    (if Joint.sgn (K := ℝ) f = 1 then X else X.inv).r.Small (3 * b) := by
  have hb := h.nonneg
  rcases hd with hd | hd
  · rw [if_pos hd]
    exact h.mono (by linarith)
  · rw [if_neg hd]
    have := (IsRot.small hX h).smul (-1)
    have e : X.inv.r = (-1 : ℝ) • (X.E *ᵥ X.r) := by
      unfold PTransform.inv
      ext <;> simp
    rw [e]
    exact this.mono (by rw [abs_neg, abs_one, one_mul])

/-- A joint of any type moves its body at most linearly in its parameters. -/
theorem Joint.BuiltUnit.reach {j : Joint ℝ} (hj : j.BuiltUnit) : ∃ c, 0 ≤ c ∧ ∀ q b, ValidParam j.type q → (∀ a, |q.getD a 0| ≤ b) →
    ((j.pose q).toOption.getD 1).r.Small (c * (1 + b)) := by
  obtain ⟨t, ax, f, n, hv, hjj⟩ := hj.exists_mk
  have hpose : ∀ x, j.pose x = (Joint.mk' t ax f n).pose x := fun x => by
    rcases hjj with rfl | ⟨mn, m, o, rfl⟩ <;> rfl
  have hjt : j.type = t := by
    rcases hjj with rfl | ⟨mn, m, o, rfl⟩ <;> rfl
  have hax := Vec3.small_exists (Joint.sgn (K := ℝ) f • ax)
  set d := |(Joint.sgn (K := ℝ) f • ax).x| + |(Joint.sgn (K := ℝ) f • ax).y| + |(Joint.sgn (K := ℝ) f • ax).z|
  have hd : 0 ≤ d := hax.nonneg
  have hsm : ∀ x b : ℝ, |x| ≤ b → (x • Joint.sgn (K := ℝ) f • ax).Small ((d + 9) * (1 + b)) := fun x b hx => by
    refine (hax.smul x).mono ?_
    nlinarith [abs_nonneg x]
  refine ⟨d + 9, by positivity, fun q b hq hb => ?_⟩
  have hb0 : 0 ≤ b := (abs_nonneg _).trans (hb 0)
  have hz : (0 : Vec3 ℝ).Small ((d + 9) * (1 + b)) := Vec3.small_zero (by positivity)
  have h9 : 9 * b ≤ (d + 9) * (1 + b) := by nlinarith
  rw [hpose]
  rw [hjt] at hq
  have hl := hq.1
  cases t
  · obtain ⟨x, hx⟩ := single_cases hl
    rw [hx, Joint.pose_rev]
    exact hz
  · obtain ⟨x, hx⟩ := single_cases hl
    have h0 := hb 0
    rw [hx] at h0
    rw [hx, Joint.pose_prism]
    exact hsm x b h0
  · rw [list_four hl]
    exact hz
  · have h1 := hb 1
    have h2 := hb 2
    rw [list_three hl]
    have hr := Joint.isRot_rotZ (q.getD 0 0)
    have hx : (⟨q.getD 1 0, q.getD 2 0, 0⟩ : Vec3 ℝ).Small b := ⟨h1, h2, by rw [abs_zero]; exact hb0⟩
    exact (PTransform.inv_reach (X := ⟨rotZ (q.getD 0 0), (rotZ (q.getD 0 0)).tr *ᵥ ⟨q.getD 1 0, q.getD 2 0, 0⟩⟩) hr
      (IsRot.tr_small hr hx) f (em _)).mono (by linarith)
  · obtain ⟨x, y, hx⟩ := List.length_eq_two.1 hl
    have h0 := hb 1
    rw [hx] at h0
    rw [hx, Joint.pose_cylindrical]
    exact hsm y b h0
  · obtain ⟨w, x, y, z, a, b', c', e1⟩ : ∃ w x y z a b c, q = [w, x, y, z, a, b, c] := ⟨_, _, _, _, _, _, _, list_seven hl⟩
    have hu : w * w + x * x + y * y + z * z = 1 := by
      have := hq.2
      rw [e1] at this
      exact this
    have h4 := hb 4
    have h5 := hb 5
    have h6 := hb 6
    rw [e1] at h4 h5 h6 ⊢
    have hx : (⟨a, b', c'⟩ : Vec3 ℝ).Small b := ⟨h4, h5, h6⟩
    exact (PTransform.inv_reach (X := ⟨Joint.quatToE w x y z, ⟨a, b', c'⟩⟩) (Joint.isRot_quatToE hu) hx f (em _)).mono (by linarith)
  · rw [List.length_eq_zero_iff.1 hl, Joint.pose_fixed]
    exact hz

/-- The reach of a robot with joints of all types grows at most linearly with its joint positions. -/
theorem Robot.reach (R : Robot mb solve) : ∀ i, i < mb.bodies.length → ∃ c, 0 ≤ c ∧ ∀ q b, ValidQ mb q → (∀ i a, |entry q i a| ≤ b) →
    (mb.posAt q i).r.Small (c * (1 + b)) := by
  have hpts : ∀ i, i < mb.bodies.length → ∃ c, 0 ≤ c ∧ ∀ q b, ValidQ mb q → (∀ i a, |entry q i a| ≤ b) → (mb.ptsAt q i).r.Small (c * (1 + b)) := by
    intro i hi
    obtain ⟨j, hj, -⟩ := R.wf.joint_get hi
    obtain ⟨c, hc, h⟩ := (R.rigid.joints j (List.mem_of_getElem? hj)).reach
    have hr := Vec3.small_exists (mb.XtAt i).r
    set d := |(mb.XtAt i).r.x| + |(mb.XtAt i).r.y| + |(mb.XtAt i).r.z|
    have hd : 0 ≤ d := hr.nonneg
    refine ⟨d + 3 * c, by positivity, fun q b hq hb => ?_⟩
    have hb0 : 0 ≤ b := (abs_nonneg _).trans (hb 0 0)
    obtain ⟨l, e1, e2⟩ := hq.param hj
    have hx : (mb.poseAt q i).r.Small (c * (1 + b)) := by
      unfold MultiBody.poseAt
      rw [hj, e1]
      refine h l b e2 fun a => ?_
      have := hb i a
      unfold entry at this
      rw [e1] at this
      exact this
    unfold MultiBody.ptsAt
    rw [PTransform.mul_r]
    refine (hr.add (IsRot.tr_small (R.rigid.XtAt i) hx)).mono ?_
    nlinarith
  intro i
  induction i using Nat.strong_induction_on with
  | _ i ih =>
    intro hi
    obtain ⟨c, hc, h⟩ := hpts i hi
    cases hp : mb.par i with
    | none => exact ⟨c, hc, fun q b hq hb => by rw [R.wf.posAt_none q hp]; exact h q b hq hb⟩
    | some p =>
      have hpl := R.wf.par_lt _ _ hp
      obtain ⟨d, hd, h'⟩ := ih p hpl (by omega)
      refine ⟨d + 3 * c, by positivity, fun q b hq hb => ?_⟩
      rw [R.wf.posAt_some q hp, PTransform.mul_r]
      refine ((h' q b hq hb).add (IsRot.tr_small (mb.posAt_rigid R.rigid hq p) (h q b hq hb))).mono ?_
      linarith

/-- C91: forces that are bounded in the frame of the world, in any bounded time, meet the condition on the environment. -/
theorem C91_bounded_forces (R : Robot mb solve) (h : FullBoundedForces mb env) : FullLinearForces mb env := by
  intro T
  obtain ⟨c, hc⟩ := h T
  have key : ∃ D, 0 ≤ D ∧ ∀ k : Fin mb.bodies.length, ∀ q b, ValidQ mb q → (∀ i a, |entry q i a| ≤ b) → (mb.posAt q k).r.Small (D * (1 + b)) := by
    refine exists_bound (fun k b c h hbc q e hq he => (h q e hq he).mono (mul_le_mul_of_nonneg_right hbc ?_)) fun k => ?_
    · linarith [(abs_nonneg _).trans (he 0 0)]
    · obtain ⟨c, -, h⟩ := R.reach k k.2
      exact ⟨c, h⟩
  obtain ⟨D, hD, hr⟩ := key
  refine ⟨3 * (|c| + 2 * (D * |c|)), fun t q α b ht hq ha hb k hk => ?_⟩
  have hb0 : 0 ≤ b := (abs_nonneg _).trans (hb 0 0).1
  have hf := (hc t q α ht hq ha k hk).mono (le_abs_self c)
  have hX := mb.posAt_rigid R.rigid hq k
  have h1 := IsRot.small hX (hf.1.sub ((hr ⟨k, hk⟩ q b hq fun i a => (hb i a).1).cross hf.2))
  have h2 := IsRot.small hX hf.2
  have hcc := abs_nonneg c
  have hRc : 0 ≤ D * |c| := by positivity
  exact ⟨h1.mono (by nlinarith), h2.mono (by nlinarith)⟩

/-! ### Examples -/

theorem springs_full (wf : mb.WF) : FullLaw mb (springs mb) := by
  refine ⟨fun w => mb.ofEntries_sized wf _, fun i a hi ha => ?_⟩
  unfold springs
  simp only [mb.entry_ofEntries _ hi ha, MultiBody.entry_unflat _ hi ha]
  have := unflatQ_diff wf (contDiff_fst.comp contDiff_snd : ContDiff ℝ 1 fun w : mb.FullSpace => w.2.1) i a
  fun_prop

theorem springs_full_linear (wf : mb.WF) : FullLinearLaw mb (springs mb) := by
  intro T
  refine ⟨3 + T ^ 2, fun t q α b ht hq ha hb i a => ?_⟩
  have hb0 : 0 ≤ b := (abs_nonneg _).trans (hb 0 0).1
  have hT := sq_le_sq' (by linarith [(abs_le.1 ht).1]) (abs_le.1 ht).2
  have h0 : 0 ≤ (3 + T ^ 2) * (1 + b) := by positivity
  by_cases hc : i < mb.bodies.length ∧ a < mb.dofAt i
  · unfold springs
    rw [mb.entry_ofEntries _ hc.1 hc.2]
    obtain ⟨h1, h2⟩ := abs_le.1 (hb i a).1
    obtain ⟨h3, h4⟩ := abs_le.1 (hb i a).2
    have h5 : 0 ≤ T ^ 2 * b := by positivity
    exact abs_le.2 ⟨by nlinarith [sq_nonneg t], by nlinarith [sq_nonneg t]⟩
  · unfold springs
    rw [entry_beyond wf (mb.ofEntries_sized wf _) hc, abs_zero]
    exact h0

theorem breeze_full (wf : mb.WF) : FullForces mb (breeze mb) := by
  refine ⟨fun t q α => by simp [breeze], fun k hk => ?_⟩
  have e : ∀ w : mb.FullSpace, ((breeze mb w.1 (mb.unflatQ w.2.1) (mb.unflat w.2.2))[k]?).getD 0 =
      ⟨0, ⟨1, Real.sin (entry (mb.unflatQ w.2.1) 0 0), w.1⟩⟩ := fun w => by
    simp [breeze, hk]
  simp only [e]
  exact ⟨.const _, contDiff_const, Real.contDiff_sin.comp (unflatQ_diff wf (contDiff_fst.comp contDiff_snd) 0 0), contDiff_fst⟩

theorem breeze_full_bounded : FullBoundedForces mb (breeze mb) := by
  intro T
  refine ⟨1 + T, fun t q α ht _ _ k hk => ?_⟩
  have hT : 0 ≤ T := (abs_nonneg _).trans ht
  have e : ((breeze mb t q α)[k]?).getD 0 = ⟨0, ⟨1, Real.sin (entry q 0 0), t⟩⟩ := by simp [breeze, hk]
  rw [e]
  refine ⟨Vec3.small_zero (by linarith), ?_, ?_, ?_⟩
  · rw [abs_one]; linarith
  · exact (Real.abs_sin_le_one _).trans (by linarith)
  · exact ht.trans (by linarith)

/-- A robot with a base on a free joint, a spherical and a revolute joint, beside a body on a planar joint. -/
theorem Sample.robot : ∃ (mb : MultiBody ℝ) (solve : DMat ℝ → List ℝ → List ℝ), Robot mb solve ∧ mb.LooseRoots ∧ mb.DirOK ∧
    mb.joints.map (·.type) = [.Free, .Spherical, .Rev, .Planar] ∧ mb.pred = [-1, 0, 1, -1] := by
  let J : List (Joint ℝ) := [Joint.mk' .Free ⟨0, 0, 1⟩ true "f", Joint.mk' .Spherical ⟨1, 0, 0⟩ true "s",
    Joint.mk' .Rev ⟨0, 0, 1⟩ false "r", Joint.mk' .Planar ⟨0, 0, 1⟩ true "p"]
  have hu : ∀ j ∈ J, j.BuiltUnit := by
    intro j hj
    simp only [J, List.mem_cons, List.not_mem_nil, or_false] at hj
    rcases hj with rfl | rfl | rfl | rfl
    · exact .mk _ _ _ _ trivial
    · exact .mk _ _ _ _ trivial
    · exact .mk _ _ _ _ (by simp [ValidAxis, IsUnit3])
    · exact .mk _ _ _ _ trivial
  obtain ⟨mb, -, wf, hb, hj, hpr, -, -, hX⟩ := MultiBody.mk'_wf
    [⟨⟨2, ⟨1, 0, 0⟩, ⟨1, 0, 1, 0, 0, 1⟩⟩, "x"⟩, ⟨⟨3, 0, ⟨2, 0, 2, 0, 0, 2⟩⟩, "y"⟩, ⟨⟨2, 0, ⟨1, 0, 1, 0, 0, 1⟩⟩, "z"⟩,
      ⟨⟨2, 0, ⟨1, 0, 1, 0, 0, 1⟩⟩, "t"⟩] J [-1, 0, 1, -1] [0, 1, 2, 3] [-1, 0, 1, -1] [1, ⟨1, ⟨0, 0, 1⟩⟩, ⟨1, ⟨1, 0, 0⟩⟩, 1] rfl rfl rfl
    (by intro i hi
        have : i < 4 := hi
        obtain rfl | rfl | rfl | rfl : i = 0 ∨ i = 1 ∨ i = 2 ∨ i = 3 := by omega
        all_goals rfl)
    (by intro i p hp
        obtain ⟨hi, -⟩ := List.getElem?_eq_some_iff.1 hp
        have : i < 4 := hi
        obtain rfl | rfl | rfl | rfl : i = 0 ∨ i = 1 ∨ i = 2 ∨ i = 3 := by omega
        all_goals (cases hp; decide))
    rfl (fun j hj => (hu j hj).built)
  have hr : mb.Rigid := by
    refine ⟨hj ▸ hu, ?_⟩
    rw [hX]; intro X h
    simp only [List.mem_cons, List.not_mem_nil, or_false] at h
    rcases h with rfl | rfl | rfl | rfl <;> exact IsRigid.one
  have hI : ∀ b ∈ mb.bodies, ∀ v : MotionVec ℝ, v ≠ 0 → 0 < v.dot (b.inertia.mulMotion v) := by
    rw [hb]
    intro b hb
    have key : ∀ w : Vec3 ℝ, w ≠ 0 → 0 < w.x ^ 2 + w.y ^ 2 + w.z ^ 2 := by
      intro w hw
      by_contra hcon
      push Not at hcon
      apply hw
      ext
      · simp only [Vec3.zero_x]; nlinarith [sq_nonneg w.x, sq_nonneg w.y, sq_nonneg w.z]
      · simp only [Vec3.zero_y]; nlinarith [sq_nonneg w.x, sq_nonneg w.y, sq_nonneg w.z]
      · simp only [Vec3.zero_z]; nlinarith [sq_nonneg w.x, sq_nonneg w.y, sq_nonneg w.z]
    simp only [List.mem_cons, List.not_mem_nil, or_false] at hb
    rcases hb with rfl | rfl | rfl | rfl <;> refine RBInertia.pos_of (by norm_num) fun w hw => ?_ <;> have := key w hw <;>
      simp [Vec3.dot, Vec3.cross, Sym3.toMat] <;>
      nlinarith [sq_nonneg w.x, sq_nonneg w.y, sq_nonneg w.z]
  have hS : ∀ j ∈ mb.joints, ∀ c ∈ j.S, c ≠ 0 := by
    rw [hj]
    intro j hj c hc h0
    simp only [J, List.mem_cons, List.not_mem_nil, or_false] at hj
    have z : ∀ f : MotionVec ℝ → ℝ, f c = f 0 := fun f => by rw [h0]
    have z1 := z fun v => v.ang.x
    have z2 := z fun v => v.ang.y
    have z3 := z fun v => v.ang.z
    have z4 := z fun v => v.lin.x
    have z5 := z fun v => v.lin.y
    have z6 := z fun v => v.lin.z
    clear z
    rcases hj with rfl | rfl | rfl | rfl <;> simp only [Joint.mk', Joint.mkS, List.mem_cons, List.not_mem_nil, or_false] at hc
    · rcases hc with rfl | rfl | rfl | rfl | rfl | rfl <;> simp at z1 z2 z3 z4 z5 z6
    · rcases hc with rfl | rfl | rfl <;> simp at z1 z2 z3 z4 z5 z6
    · subst hc
      simp at z1 z2 z3 z4 z5 z6
    · rcases hc with rfl | rfl | rfl <;> simp at z1 z2 z3 z4 z5 z6
  obtain ⟨solve, hs⟩ := SolvesPositive.exists mb.nrDof
  refine ⟨mb, solve, ⟨wf, hr, hI, hS, hs⟩, fun i hi h => ?_, fun j h => ?_, by rw [hj]; rfl, hpr⟩
  · rw [hb] at hi
    have : i < 4 := hi
    unfold MultiBody.typeAt at h
    rw [hj] at h
    unfold MultiBody.par
    rw [hpr]
    obtain rfl | rfl | rfl | rfl : i = 0 ∨ i = 1 ∨ i = 2 ∨ i = 3 := by omega
    · rfl
    · simp [J, Joint.mk'] at h
    · simp [J, Joint.mk'] at h
    · rfl
  · rw [hj] at h
    simp only [J, List.mem_cons, List.not_mem_nil, or_false] at h
    rcases h with rfl | rfl | rfl | rfl
    · exact .inl (by simp [Joint.isForward, Joint.mk', Joint.sgn])
    · exact .inl (by simp [Joint.isForward, Joint.mk', Joint.sgn])
    · exact .inr (.inl rfl)
    · exact .inl (by simp [Joint.isForward, Joint.mk', Joint.sgn])

/-- With springs, dampers, a drive and a breeze the robot with free, spherical, revolute and planar joints has one motion from a moving state, and it lasts
for ever. -/
example : ∃ (mb : MultiBody ℝ) (solve : DMat ℝ → List ℝ → List ℝ), mb.joints.map (·.type) = [.Free, .Spherical, .Rev, .Planar] ∧
    ∃ mbc : ℝ → MBC ℝ, (mbc 5).q = [[0, 1, 0, 0, 7, 8, 9], [1, 0, 0, 0], [4], [1, 2, 3]] ∧ (mbc 5).alpha = [[1, 2, 3, 4, 5, 6], [1, 2, 3], [6], [7, 8, 9]] ∧
      Motion mb solve (springs mb) (breeze mb) ⟨0, 0, 9⟩ Set.univ mbc ∧
      ∀ mbc' : ℝ → MBC ℝ, Motion mb solve (springs mb) (breeze mb) ⟨0, 0, 9⟩ Set.univ mbc' → (mbc' 5).q = (mbc 5).q → (mbc' 5).alpha = (mbc 5).alpha →
        ∀ t, (mbc' t).q = (mbc t).q := by
  obtain ⟨mb, solve, R, h1, h2, h3, -⟩ := Sample.robot
  have hq : ValidQ mb [[0, 1, 0, 0, 7, 8, 9], [1, 0, 0, 0], [4], [1, 2, 3]] := by
    unfold ValidQ
    refine (List.forall₂_map_left_iff (f := fun j : Joint ℝ => j.type) (R := ValidParam)).1 ?_
    rw [h3]
    refine .cons ⟨rfl, ?_⟩ (.cons ⟨rfl, ?_⟩ (.cons ⟨rfl, trivial⟩ (.cons ⟨rfl, trivial⟩ .nil)))
    · show (0 : ℝ) * 0 + 1 * 1 + 0 * 0 + 0 * 0 = 1
      norm_num
    · show (1 : ℝ) * 1 + 0 * 0 + 0 * 0 + 0 * 0 = 1
      norm_num
  have ha : SizedDof mb [[1, 2, 3, 4, 5, 6], [1, 2, 3], [6], [7, 8, 9]] := by
    have e : mb.joints.map Joint.dof = (mb.joints.map (·.type)).map Joint.nDof := by
      rw [List.map_map]
      refine List.map_congr_left fun j hj => ?_
      exact (R.rigid.joints j hj).built.sizes.2
    unfold SizedDof
    rw [e, h3]
    rfl
  obtain ⟨mbc, k1, k2, k⟩ := C91_forever R h1 h2 (springs_full R.wf) (breeze_full R.wf) (springs_full_linear R.wf)
    (C91_bounded_forces R breeze_full_bounded) ⟨0, 0, 9⟩ hq ha 5
  refine ⟨mb, solve, h3, mbc, k1, k2, k, fun mbc' k' e1 e2 t => ?_⟩
  exact (C91_unique R (springs_full R.wf) (breeze_full R.wf) (a := min t 5) (b := max t 5) (t₀ := 5) ⟨min_le_right _ _, le_max_right _ _⟩
    (k'.mono (Set.subset_univ _)) (k.mono (Set.subset_univ _)) e1 e2 ⟨min_le_left _ _, le_max_left _ _⟩).1

end RBDyn
