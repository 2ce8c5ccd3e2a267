import Verif.Lemmas.Coercive
import Verif.Lemmas.OdeGlobal
import Verif.Props.SimConverge

/-! The kinetic energy of a robot bounds its velocities, uniformly in the joint positions, and its rate of change is the power of the torques,
weights and external forces. -/

namespace RBDyn
open scoped Mat3

/-! ### Functions of linear and quadratic growth -/

section growth
variable {W : Type}

/-- `F` grows at most as `1 + s` on `S`. -/
def Ord1 (S : Set W) (s : W → ℝ) (F : W → ℝ) : Prop := ∃ C, 0 ≤ C ∧ ∀ w ∈ S, |F w| ≤ C * (1 + s w)

/-- `F` grows at most as `1 + s²` on `S`. -/
def Ord2 (S : Set W) (s : W → ℝ) (F : W → ℝ) : Prop := ∃ C, 0 ≤ C ∧ ∀ w ∈ S, |F w| ≤ C * (1 + s w ^ 2)

variable {S : Set W} {s : W → ℝ}

theorem ord_square {C D u : ℝ} (hC : 0 ≤ C) (hD : 0 ≤ D) : C * (1 + u) * (D * (1 + u)) ≤ 2 * (C * D) * (1 + u ^ 2) := by
  have : (1 + u) ^ 2 ≤ 2 * (1 + u ^ 2) := by nlinarith [sq_nonneg (u - 1)]
  nlinarith [mul_nonneg hC hD]

theorem Ord1.mul {F G : W → ℝ} (hF : Ord1 S s F) (hG : Ord1 S s G) : Ord2 S s fun w => F w * G w := by
  obtain ⟨C, hC, h⟩ := hF
  obtain ⟨D, hD, h'⟩ := hG
  exact ⟨2 * (C * D), by positivity, fun w hw => (abs_mul_le (h w hw) (h' w hw)).trans (ord_square hC hD)⟩

theorem Ord2.add {F G : W → ℝ} (hF : Ord2 S s F) (hG : Ord2 S s G) : Ord2 S s fun w => F w + G w := by
  obtain ⟨C, hC, h⟩ := hF
  obtain ⟨D, hD, h'⟩ := hG
  refine ⟨C + D, by positivity, fun w hw => (abs_add_le _ _).trans ?_⟩
  linarith [h w hw, h' w hw]

theorem Ord2.sub {F G : W → ℝ} (hF : Ord2 S s F) (hG : Ord2 S s G) : Ord2 S s fun w => F w - G w := by
  obtain ⟨C, hC, h⟩ := hF
  obtain ⟨D, hD, h'⟩ := hG
  refine ⟨C + D, by positivity, fun w hw => (abs_sub _ _).trans ?_⟩
  linarith [h w hw, h' w hw]

theorem Ord2.sum {ι : Type} {F : ι → W → ℝ} (A : Finset ι) (h : ∀ i ∈ A, Ord2 S s (F i)) : Ord2 S s fun w => ∑ i ∈ A, F i w := by
  classical
  induction A using Finset.induction_on with
  | empty => exact ⟨0, le_rfl, fun w _ => by simp⟩
  | insert a A ha ih =>
    simp only [Finset.sum_insert ha]
    exact (h a (Finset.mem_insert_self _ _)).add (ih fun i hi => h i (Finset.mem_insert_of_mem hi))

theorem Ord2.const_mul {F : W → ℝ} (hF : Ord2 S s F) (c : ℝ) : Ord2 S s fun w => c * F w := by
  obtain ⟨C, hC, h⟩ := hF
  refine ⟨|c| * C, by positivity, fun w hw => ?_⟩
  rw [abs_mul, mul_assoc]
  exact mul_le_mul_of_nonneg_left (h w hw) (abs_nonneg _)

/-- Motion vectors that grow at most as `1 + s`. -/
def OrdMotion (S : Set W) (s : W → ℝ) (v : W → MotionVec ℝ) : Prop := ∃ C, 0 ≤ C ∧ ∀ w ∈ S, (v w).Small (C * (1 + s w))

/-- Force vectors that grow at most as `1 + s`. -/
def OrdForce (S : Set W) (s : W → ℝ) (f : W → ForceVec ℝ) : Prop := ∃ C, 0 ≤ C ∧ ∀ w ∈ S, (f w).Small (C * (1 + s w))

theorem OrdMotion.dot {v : W → MotionVec ℝ} {f : W → ForceVec ℝ} (hv : OrdMotion S s v) (hf : OrdForce S s f) :
    Ord2 S s fun w => (v w).dot (f w) := by
  obtain ⟨C, hC, h⟩ := hv
  obtain ⟨D, hD, h'⟩ := hf
  refine ⟨6 * (2 * (C * D)), by positivity, fun w hw => ((h w hw).dot (h' w hw)).trans ?_⟩
  linarith [ord_square (u := s w) hC hD]

/-- Finitely many bounds are one bound. -/
theorem exists_bound {ι : Type} [Finite ι] {P : ι → ℝ → Prop} (hm : ∀ i {b c}, P i b → b ≤ c → P i c) (h : ∀ i, ∃ c, P i c) :
    ∃ C, 0 ≤ C ∧ ∀ i, P i C := by
  classical
  cases nonempty_fintype ι
  choose c hc using h
  refine ⟨∑ i, |c i|, Finset.sum_nonneg fun i _ => abs_nonneg _, fun i => hm i (hc i) ((le_abs_self _).trans ?_)⟩
  exact Finset.single_le_sum (f := fun i => |c i|) (fun i _ => abs_nonneg _) (Finset.mem_univ i)

end growth

/-! ### The energy bounds the velocities -/

/-- Twice the kinetic energy. -/
noncomputable def MultiBody.kin2 (mb : MultiBody ℝ) (q α : List (List ℝ)) : ℝ :=
  ∑ k ∈ Finset.range mb.bodies.length, (mb.velAt q α k).dot ((mb.inertiaAt k).mulMotion (mb.velAt q α k))

variable {mb : MultiBody ℝ} {solve : DMat ℝ → List ℝ → List ℝ} {law : ℝ → List (List ℝ) → List (List ℝ) → List (List ℝ)}
  {env : ℝ → List (List ℝ) → List (List ℝ) → List (ForceVec ℝ)} {γ : Vec3 ℝ}

theorem Machine.inertiaAt (M : Machine mb solve) {k : Nat} (hk : k < mb.bodies.length) (v : MotionVec ℝ) (hv : v ≠ 0) :
    0 < v.dot ((mb.inertiaAt k).mulMotion v) := by
  have : mb.inertiaAt k = (mb.bodies[k]).inertia := by simp [MultiBody.inertiaAt, hk]
  rw [this]
  exact M.inertia _ (List.getElem_mem hk) v hv

theorem Machine.kin_term (M : Machine mb solve) {k : Nat} (hk : k < mb.bodies.length) (v : MotionVec ℝ) :
    0 ≤ v.dot ((mb.inertiaAt k).mulMotion v) := by
  by_cases hv : v = 0
  · subst hv
    simp [MotionVec.dot, Vec3.dot]
  · exact (M.inertiaAt hk v hv).le

theorem Machine.kin2_nonneg (M : Machine mb solve) (q α : List (List ℝ)) : 0 ≤ mb.kin2 q α :=
  Finset.sum_nonneg fun _ hk => M.kin_term (Finset.mem_range.1 hk) _

/-- The velocities of the bodies are bounded by the root of the energy. -/
theorem Machine.vel_bound (M : Machine mb solve) :
    ∃ C, 0 ≤ C ∧ ∀ k : Fin mb.bodies.length, ∀ q α, (mb.velAt q α k).Small (C * √(mb.kin2 q α)) := by
  refine exists_bound (fun k b c h hbc q α => (h q α).mono (mul_le_mul_of_nonneg_right hbc (Real.sqrt_nonneg _))) fun k => ?_
  obtain ⟨c, hc, h⟩ := RBInertia.coercive (M.inertiaAt k.2)
  refine ⟨c, fun q α => (h _).mono (mul_le_mul_of_nonneg_left (Real.sqrt_le_sqrt ?_) hc)⟩
  exact Finset.single_le_sum (f := fun k => (mb.velAt q α k).dot ((mb.inertiaAt k).mulMotion (mb.velAt q α k)))
    (fun k hk => M.kin_term (Finset.mem_range.1 hk) _) (Finset.mem_range.2 k.2)

/-- The joint velocities are bounded by the root of the energy. -/
theorem Machine.entry_bound (M : Machine mb solve) :
    ∃ C, 0 ≤ C ∧ ∀ x : mb.Ix, ∀ q α, SizedDof mb q → SizedDof mb α → |entry α x.1 x.2| ≤ C * √(mb.kin2 q α) := by
  obtain ⟨C, hC, hv⟩ := M.vel_bound
  refine exists_bound (fun x b c h hbc q α hq ha => (h q α hq ha).trans (mul_le_mul_of_nonneg_right hbc (Real.sqrt_nonneg _))) fun x => ?_
  obtain ⟨⟨i, hi⟩, ⟨a, ha⟩⟩ := x
  obtain ⟨j, hj, -⟩ := M.wf.joint_get hi
  obtain ⟨φ, h1, h2⟩ := axis_probe M.wf M.rigid M.subspace hi ha hj (M.simple j (List.mem_of_getElem? hj))
  obtain ⟨d, hd, hφ⟩ := ForceVec.small_exists φ
  have hX : IsRigid (mb.XtAt i) := by
    unfold MultiBody.XtAt
    cases h : mb.Xt[i]? with
    | none => exact IsRigid.one
    | some X => exact M.rigid.Xt _ (List.mem_of_getElem? h)
  obtain ⟨e, he, hXt⟩ := PTransform.small_mulMotion hX
  refine ⟨6 * (C * d) + 6 * (e * C * d), fun q α hq hα => ?_⟩
  have hvi := hv ⟨i, hi⟩ q α
  dsimp only at hvi
  have n1 := hvi.dot hφ
  have hs := Real.sqrt_nonneg (mb.kin2 q α)
  rw [← h2 α hα]
  cases hp : mb.par i with
  | none =>
    rw [M.wf.velAt_none M.rigid (M.valid hq) α hi hp] at n1
    have : 0 ≤ 6 * (e * C * d) * √(mb.kin2 q α) := by positivity
    nlinarith
  | some p =>
    have hpl := M.wf.par_lt _ _ hp
    have e1 : mb.jointMotion α i = mb.velAt q α i - (mb.ptsAt q i).mulMotion (mb.velAt q α p) := by
      rw [M.wf.velAt_some M.rigid (M.valid hq) α hi hp]
      ext <;> simp
    have e2 : ((mb.ptsAt q i).mulMotion (mb.velAt q α p)).dot φ = ((mb.XtAt i).mulMotion (mb.velAt q α p)).dot φ := by
      unfold MultiBody.ptsAt
      rw [PTransform.mul_mulMotion _ _ _ hX, h1 q (by rw [hq.length, M.wf.njoints]; exact hi) (hq.getD_length M.wf hi)]
    have n2 := (hXt _ _ (hv ⟨p, by omega⟩ q α)).dot hφ
    rw [e1, MotionVec.sub_dot, e2]
    refine (abs_sub _ _).trans ?_
    dsimp only at n2
    nlinarith

/-! ### The rate of the energy -/

/-- The rate of change of the energy is the power of the torques, the weights and the external forces. -/
theorem Machine.kin2_rate (M : Machine mb solve) {x : ℝ → mb.Space} {w : mb.Space} {t : ℝ} (h0 : x t = w)
    (hx : HasDerivAt x (flow mb law env γ w) t) :
    HasDerivAt (fun s => mb.kin2 (mb.unflat (x s).2.1) (mb.unflat (x s).2.2))
      (2 * (∑ y : mb.Ix, w.2.2 y * entry (law w.1 (mb.unflat w.2.1) (mb.unflat w.2.2)) y.1 y.2 +
        ∑ k ∈ Finset.range mb.bodies.length, (mb.velAt (mb.unflat w.2.1) (mb.unflat w.2.2) k).dot
          ((mb.posAt (mb.unflat w.2.1) k).dualMul (((env w.1 (mb.unflat w.2.1) (mb.unflat w.2.2))[k]?).getD 0)) -
        ∑ k ∈ Finset.range mb.bodies.length, (mb.velAt (mb.unflat w.2.1) (mb.unflat w.2.2) k).dot
          ((mb.inertiaAt k).mulMotion ((mb.posAt (mb.unflat w.2.1) k).mulMotion ⟨0, γ⟩)))) t := by
  have hd : mb.DirOK := fun j hj => Or.inr (M.simple j hj)
  have hm : Trajectory mb (fun s => mb.unflat (x s).2.1) (mb.unflat w.2.2) t :=
    unflat_moves M (((ContinuousLinearMap.fst ℝ (mb.Ix → ℝ) (mb.Ix → ℝ)).comp
      (ContinuousLinearMap.snd ℝ ℝ ((mb.Ix → ℝ) × (mb.Ix → ℝ)))).hasFDerivAt.comp_hasDerivAt t hx)
  have ha : HasDerivDof mb (fun s => mb.unflat (x s).2.2) (mb.unflat (accelAt mb law env γ w)) t :=
    unflat_rate M (((ContinuousLinearMap.snd ℝ (mb.Ix → ℝ) (mb.Ix → ℝ)).comp
      (ContinuousLinearMap.snd ℝ ℝ ((mb.Ix → ℝ) × (mb.Ix → ℝ)))).hasFDerivAt.comp_hasDerivAt t hx)
  have hm' : Trajectory mb (fun s => mb.unflat (x s).2.1) ((fun s => mb.unflat (x s).2.2) t) t := by
    dsimp only
    rw [h0]
    exact hm
  have hk := fun k (hk : k ∈ Finset.range mb.bodies.length) => mb.kinetic_hasDeriv M.wf M.rigid hd hm' ha (Finset.mem_range.1 hk)
  refine (HasDerivAt.finset_sum hk).congr_deriv ?_
  rw [h0]
  set q := mb.unflat w.2.1
  set α := mb.unflat w.2.2 with hα
  set r := mb.unflat (accelAt mb law env γ w)
  set fe := fun k : Nat => ((env w.1 q α)[k]?).getD 0
  have ht := (accOf_iff M.wf M.rigid (M.valid (mb.unflat_sized M.wf w.2.1)) M.inertia M.subspace α (law w.1 q α) ⟨0, γ⟩ fe r).2
    (MultiBody.flat_unflat _)
  have hp : ∑ y : mb.Ix, w.2.2 y * entry (law w.1 q α) y.1 y.2 =
      ∑ k ∈ Finset.range mb.bodies.length, (mb.velAt q α k).dot (mb.netForceAt q α r ⟨0, γ⟩ fe k) := by
    rw [← M.wf.power, MultiBody.dofSum_ix]
    refine Finset.sum_congr rfl fun y _ => ?_
    rw [ht _ _ y.1.2 y.2.2, hα, MultiBody.entry_unflat _ y.1.2 y.2.2]
  rw [hp, ← Finset.sum_add_distrib, ← Finset.sum_sub_distrib, Finset.mul_sum]
  refine Finset.sum_congr rfl fun k _ => ?_
  rw [MultiBody.netForceAt, mb.accAt_base q α r ⟨0, γ⟩, RBInertia.mulMotion_add, MotionVec.dot_sub, MotionVec.dot_add, MotionVec.dot_add,
    MotionVec.dot_add]
  ring

end RBDyn
