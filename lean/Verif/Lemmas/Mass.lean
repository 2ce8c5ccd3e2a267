import Verif.Lemmas.Dynamics
import Verif.Lemmas.Flatten

/-! Algebra of the mass matrix and of the bias force, on the specification side. -/

namespace RBDyn
variable {K : Type} [Scalar K] {mb : MultiBody K}

/-- Inertia of the bodies that hang on joint `i`, in the frame of body `i`. -/
def MultiBody.IcAt (mb : MultiBody K) (q : List (List K)) (i : Nat) : RBInertia K :=
  ∑ k ∈ mb.subtree i, (mb.relAt q i k).transMulI (mb.inertiaAt k)

section tree

theorem pathUp_comparable {par : Nat → Option Nat} (k : Nat) : ∀ {i j : Nat}, i ∈ pathUp par k → j ∈ pathUp par k →
    i ∈ pathUp par j ∨ j ∈ pathUp par i := by
  induction k using Nat.strong_induction_on with
  | _ k ih =>
    intro i j hi hj
    by_cases h : ∃ p, par k = some p ∧ p < k
    · obtain ⟨p, h1, h2⟩ := h
      rw [mem_pathUp_some h1 h2] at hi hj
      rcases hi with rfl | hi
      · rcases hj with rfl | hj
        · exact .inl (self_mem_pathUp _ _)
        · right; rw [mem_pathUp_some h1 h2]; exact .inr hj
      · rcases hj with rfl | hj
        · left; rw [mem_pathUp_some h1 h2]; exact .inr hi
        · exact ih p h2 hi hj
    · have e : pathUp par k = [k] := by
        unfold pathUp
        cases hp : par k with
        | none => rfl
        | some p => simp only; rw [dif_neg (fun h' => h ⟨p, hp, h'⟩)]
      rw [e] at hi hj
      simp only [List.mem_singleton] at hi hj
      subst hi; subst hj
      exact .inl (self_mem_pathUp _ _)

end tree

section rec
variable {q : List (List K)}

theorem MultiBody.WF.IcAt_rec (wf : mb.WF) (hr : mb.Rigid) (hq : ValidQ mb q) :
    SubRec mb.par (fun c => (mb.ptsAt q c).transMulI) mb.inertiaAt (mb.IcAt q) mb.bodies.length := by
  intro i hi
  unfold MultiBody.IcAt MultiBody.subtree
  rw [subtree_sum wf.par_lt _ i hi, mb.relAt_self hr hq]
  congr 1
  · apply RBInertia.ext_mulMotion
    intro v
    rw [PTransform.transMulI_mulMotion IsRigid.one, PTransform.one_transMul, PTransform.one_mulMotion]
  refine Finset.sum_congr rfl fun c hc => ?_
  rw [Finset.mem_filter] at hc
  show _ = (mb.ptsAt q c).transMulI _
  rw [← PTransform.transIHom_apply, map_sum]
  refine Finset.sum_congr rfl fun k _ => ?_
  rw [PTransform.transIHom_apply, ← PTransform.mul_transMulI _ _ (mb.relAt_rigid hr hq c k) (mb.ptsAt_rigid hr hq c),
    ← wf.relAt_parent hr hq hc.2, mb.relAt_mul hr hq]

end rec

section homs

/-- `mulMotion` of an inertia as an additive map. -/
def RBInertia.motionHom (I : RBInertia K) : MotionVec K →+ ForceVec K where
  toFun := I.mulMotion
  map_zero' := by simp
  map_add' := I.mulMotion_add

@[simp] theorem RBInertia.motionHom_apply (I : RBInertia K) (v : MotionVec K) : I.motionHom v = I.mulMotion v := rfl

theorem RBInertia.sum_mulMotion {ι : Type} (s : Finset ι) (I : ι → RBInertia K) (v : MotionVec K) :
    (∑ k ∈ s, I k).mulMotion v = ∑ k ∈ s, (I k).mulMotion v := by
  classical
  induction s using Finset.induction_on with
  | empty => simp
  | insert a s h ih => rw [Finset.sum_insert h, Finset.sum_insert h, RBInertia.add_mulMotion, ih]

theorem RBInertia.mulMotion_sum {ι : Type} (s : Finset ι) (I : RBInertia K) (v : ι → MotionVec K) :
    I.mulMotion (∑ k ∈ s, v k) = ∑ k ∈ s, I.mulMotion (v k) := map_sum I.motionHom v s

theorem MotionVec.dot_sum {ι : Type} (s : Finset ι) (v : MotionVec K) (f : ι → ForceVec K) :
    v.dot (∑ k ∈ s, f k) = ∑ k ∈ s, v.dot (f k) := map_sum v.dotHom f s

theorem MotionVec.sum_dot {ι : Type} (s : Finset ι) (v : ι → MotionVec K) (f : ForceVec K) :
    (∑ k ∈ s, v k).dot f = ∑ k ∈ s, (v k).dot f := by
  classical
  induction s using Finset.induction_on with
  | empty => simp
  | insert a s h ih => rw [Finset.sum_insert h, Finset.sum_insert h, MotionVec.add_dot, ih]

end homs

/-- The motion subspace applied to a vector is the combination of its columns. -/
theorem applyCols_eq_sum (S : List (MotionVec K)) (a : List K) (n : Nat) (hS : S.length = n) :
    applyCols S a = ∑ b ∈ Finset.range n, a.getD b 0 • S.getD b 0 := by
  subst hS
  induction S generalizing a with
  | nil => simp [applyCols]
  | cons c S ih =>
    cases a with
    | nil => simp [applyCols]
    | cons x a =>
      rw [List.length_cons, Finset.sum_range_succ', add_comm]
      have := ih a
      unfold applyCols at this ⊢
      simpa using this

section spec
variable {q : List (List K)}

theorem MultiBody.WF.jointMotion_eq (wf : mb.WF) (a : List (List K)) {i : Nat} (hi : i < mb.bodies.length) :
    mb.jointMotion a i = ∑ b ∈ Finset.range (mb.dofAt i), entry a i b • (mb.SAt i).getD b 0 :=
  applyCols_eq_sum _ _ _ (wf.SAt_length hi)

/-- Any path sum of transported joint motions is the Jacobian applied to the generalized velocity. -/
theorem MultiBody.WF.path_sum_eq (wf : mb.WF) (a : List (List K)) (k : Nat) :
    ∑ i ∈ mb.path k, (mb.relAt q i k).mulMotion (mb.jointMotion a i) = mb.dofSum fun i b => entry a i b • mb.colAt q k i b := by
  unfold MultiBody.path MultiBody.dofSum
  rw [Finset.sum_filter]
  refine Finset.sum_congr rfl fun i hi => ?_
  rw [Finset.mem_range] at hi
  split
  · rename_i h
    rw [wf.jointMotion_eq a hi, ← PTransform.motionHom_apply, map_sum]
    refine Finset.sum_congr rfl fun b _ => ?_
    dsimp only
    rw [MultiBody.colAt, if_pos h, map_smul, PTransform.motionHom_apply]
  · rename_i h
    rw [Finset.sum_eq_zero]
    intro b _
    dsimp only
    rw [MultiBody.colAt, if_neg h, smul_zero]

theorem MultiBody.WF.velAt_eq (wf : mb.WF) (alpha : List (List K)) (k : Nat) :
    mb.velAt q alpha k = mb.dofSum fun i b => entry alpha i b • mb.colAt q k i b := wf.path_sum_eq alpha k

/-- The acceleration splits into a bias and a part linear in the generalized accelerations. -/
theorem MultiBody.WF.accAt_eq (wf : mb.WF) (alpha alphaD : List (List K)) (a0 : MotionVec K) (k : Nat) :
    mb.accAt q alpha alphaD a0 k = mb.accAt q alpha [] a0 k + mb.dofSum fun i b => entry alphaD i b • mb.colAt q k i b := by
  have h0 : ∀ i, mb.jointMotion [] i = 0 := fun i => by simp [MultiBody.jointMotion, applyCols]
  rw [← wf.path_sum_eq, MultiBody.accAt, MultiBody.accAt, add_assoc]
  congr 1
  rw [← Finset.sum_add_distrib]
  refine Finset.sum_congr rfl fun i _ => ?_
  rw [h0, zero_add, PTransform.mulMotion_add, add_comm]

/-- The projection of a carried wrench is the power of the forces in the corresponding columns. -/
theorem MultiBody.dot_wrenchAt (mb : MultiBody K) (f : Nat → ForceVec K) (i a : Nat) :
    ((mb.SAt i).getD a 0).dot (mb.wrenchAt q f i) = ∑ k ∈ Finset.range mb.bodies.length, (mb.colAt q k i a).dot (f k) := by
  unfold MultiBody.wrenchAt MultiBody.subtree
  rw [MotionVec.dot_sum, Finset.sum_filter]
  refine Finset.sum_congr rfl fun k _ => ?_
  unfold MultiBody.colAt
  split
  · rw [PTransform.mulMotion_dot]
  · simp

theorem MultiBody.massAt_comm (mb : MultiBody K) (i a j b : Nat) : mb.massAt q i a j b = mb.massAt q j b i a :=
  Finset.sum_congr rfl fun _ _ => RBInertia.dot_mulMotion_comm _ _ _

/-- Unrelated joints do not interact. -/
theorem MultiBody.massAt_unrelated (mb : MultiBody K) {i j : Nat} (h1 : i ∉ pathUp mb.par j) (h2 : j ∉ pathUp mb.par i) (a b : Nat) :
    mb.massAt q i a j b = 0 := by
  unfold MultiBody.massAt
  refine Finset.sum_eq_zero fun k _ => ?_
  unfold MultiBody.colAt
  by_cases hi : i ∈ pathUp mb.par k
  · by_cases hj : j ∈ pathUp mb.par k
    · exact absurd (pathUp_comparable k hi hj) (by simp [h1, h2])
    · rw [if_neg hj]; simp
  · rw [if_neg hi]; simp

/-- Force column `a` of joint `i`, transported to body `j`. -/
def MultiBody.FAt (mb : MultiBody K) (q : List (List K)) (j i a : Nat) : ForceVec K :=
  (mb.relAt q j i).transMul ((mb.IcAt q i).mulMotion ((mb.SAt i).getD a 0))

theorem MultiBody.massAt_ancestor (hr : mb.Rigid) (hq : ValidQ mb q) {i j : Nat} (h : j ∈ pathUp mb.par i) (a b : Nat) :
    mb.massAt q i a j b = ((mb.SAt j).getD b 0).dot (mb.FAt q j i a) := by
  unfold MultiBody.massAt MultiBody.FAt MultiBody.IcAt MultiBody.subtree
  rw [RBInertia.sum_mulMotion, ← PTransform.transHom_apply, map_sum, MotionVec.dot_sum, Finset.sum_filter]
  refine Finset.sum_congr rfl fun k _ => ?_
  split
  · rename_i hi
    have hj := pathUp_trans hi h
    rw [MultiBody.colAt, MultiBody.colAt, if_pos hi, if_pos hj, RBInertia.dot_mulMotion_comm, ← mb.relAt_mul hr hq j i k,
      PTransform.mul_mulMotion _ _ _ (mb.relAt_rigid hr hq j i), PTransform.transHom_apply,
      PTransform.transMulI_mulMotion (mb.relAt_rigid hr hq i k), PTransform.mulMotion_dot, PTransform.mulMotion_dot]
  · rename_i hi
    rw [MultiBody.colAt, if_neg hi]
    simp

/-- Transporting the force columns one body up. -/
theorem MultiBody.WF.FAt_parent (wf : mb.WF) (hr : mb.Rigid) (hq : ValidQ mb q) {j p : Nat} (h : mb.par j = some p) (i a : Nat) :
    (mb.ptsAt q j).transMul (mb.FAt q j i a) = mb.FAt q p i a := by
  unfold MultiBody.FAt
  rw [← wf.relAt_parent hr hq h, ← PTransform.mul_transMul _ _ _ (mb.relAt_rigid hr hq p j), mb.relAt_mul hr hq]

theorem MultiBody.FAt_self (hr : mb.Rigid) (hq : ValidQ mb q) (i a : Nat) :
    mb.FAt q i i a = (mb.IcAt q i).mulMotion ((mb.SAt i).getD a 0) := by
  unfold MultiBody.FAt
  rw [mb.relAt_self hr hq, PTransform.one_transMul]

/-- The joint torque of inverse dynamics is linear in the accelerations, with the mass matrix as coefficient. -/
theorem MultiBody.WF.torque_split (wf : mb.WF) (alpha alphaD : List (List K)) (a0 : MotionVec K) (fe : Nat → ForceVec K)
    (i a : Nat) :
    ((mb.SAt i).getD a 0).dot (mb.wrenchAt q (mb.netForceAt q alpha alphaD a0 fe) i) =
      (mb.dofSum fun j b => mb.massAt q i a j b * entry alphaD j b) +
        ((mb.SAt i).getD a 0).dot (mb.wrenchAt q (mb.netForceAt q alpha [] a0 fe) i) := by
  rw [mb.dot_wrenchAt, mb.dot_wrenchAt]
  have e : ∀ k, mb.netForceAt q alpha alphaD a0 fe k =
      (mb.inertiaAt k).mulMotion (mb.dofSum fun i b => entry alphaD i b • mb.colAt q k i b) + mb.netForceAt q alpha [] a0 fe k := by
    intro k
    unfold MultiBody.netForceAt
    rw [wf.accAt_eq alpha alphaD, RBInertia.mulMotion_add]
    abel
  simp only [e, MotionVec.dot_add, Finset.sum_add_distrib]
  congr 1
  unfold MultiBody.dofSum MultiBody.massAt
  rw [Finset.sum_congr rfl fun k _ => by rw [RBInertia.mulMotion_sum, MotionVec.dot_sum], Finset.sum_comm]
  refine Finset.sum_congr rfl fun j _ => ?_
  rw [Finset.sum_congr rfl fun k _ => by rw [RBInertia.mulMotion_sum, MotionVec.dot_sum], Finset.sum_comm]
  refine Finset.sum_congr rfl fun b _ => ?_
  dsimp only
  rw [Finset.sum_mul]
  refine Finset.sum_congr rfl fun k _ => ?_
  rw [RBInertia.mulMotion_smul, MotionVec.dot_smul, mul_comm]

theorem dofSum_mul (c : K) (g : Nat → Nat → K) : c * mb.dofSum g = mb.dofSum fun i a => c * g i a := by
  unfold MultiBody.dofSum
  rw [Finset.mul_sum]
  exact Finset.sum_congr rfl fun _ _ => Finset.mul_sum ..

theorem dofSum_congr {M : Type} [AddCommMonoid M] {g h : Nat → Nat → M}
    (e : ∀ i a, i < mb.bodies.length → a < mb.dofAt i → g i a = h i a) : mb.dofSum g = mb.dofSum h := by
  unfold MultiBody.dofSum
  exact Finset.sum_congr rfl fun i hi => Finset.sum_congr rfl fun a ha => e i a (Finset.mem_range.1 hi) (Finset.mem_range.1 ha)

/-- Virtual work: the power of the joint torques is the power of the body forces. -/
theorem MultiBody.WF.power (wf : mb.WF) (alpha : List (List K)) (f : Nat → ForceVec K) :
    (mb.dofSum fun i a => entry alpha i a * ((mb.SAt i).getD a 0).dot (mb.wrenchAt q f i)) =
      ∑ k ∈ Finset.range mb.bodies.length, (mb.velAt q alpha k).dot (f k) := by
  have e : ∀ k, (mb.velAt q alpha k).dot (f k) = mb.dofSum fun i a => entry alpha i a * (mb.colAt q k i a).dot (f k) := by
    intro k
    rw [wf.velAt_eq]
    unfold MultiBody.dofSum
    rw [MotionVec.sum_dot]
    refine Finset.sum_congr rfl fun i _ => ?_
    rw [MotionVec.sum_dot]
    exact Finset.sum_congr rfl fun a _ => MotionVec.smul_dot ..
  rw [Finset.sum_congr rfl fun k _ => e k]
  unfold MultiBody.dofSum
  rw [Finset.sum_comm]
  refine Finset.sum_congr rfl fun i _ => ?_
  rw [Finset.sum_comm]
  refine Finset.sum_congr rfl fun a _ => ?_
  dsimp only
  rw [mb.dot_wrenchAt, Finset.mul_sum]

/-- The quadratic form of the mass matrix is twice the kinetic energy. -/
theorem MultiBody.WF.kinetic (wf : mb.WF) (alpha : List (List K)) :
    (mb.dofSum fun i a => entry alpha i a * mb.dofSum fun j b => mb.massAt q i a j b * entry alpha j b) =
      ∑ k ∈ Finset.range mb.bodies.length, (mb.velAt q alpha k).dot ((mb.inertiaAt k).mulMotion (mb.velAt q alpha k)) := by
  have e : ∀ i a, (mb.dofSum fun j b => mb.massAt q i a j b * entry alpha j b) =
      ((mb.SAt i).getD a 0).dot (mb.wrenchAt q (fun k => (mb.inertiaAt k).mulMotion (mb.velAt q alpha k)) i) := by
    intro i a
    rw [mb.dot_wrenchAt]
    unfold MultiBody.massAt
    have e' : ∀ k, (mb.colAt q k i a).dot ((mb.inertiaAt k).mulMotion (mb.velAt q alpha k)) =
        mb.dofSum fun j b => (mb.colAt q k i a).dot ((mb.inertiaAt k).mulMotion (mb.colAt q k j b)) * entry alpha j b := by
      intro k
      rw [wf.velAt_eq]
      unfold MultiBody.dofSum
      rw [RBInertia.mulMotion_sum, MotionVec.dot_sum]
      refine Finset.sum_congr rfl fun j _ => ?_
      rw [RBInertia.mulMotion_sum, MotionVec.dot_sum]
      refine Finset.sum_congr rfl fun b _ => ?_
      rw [RBInertia.mulMotion_smul, MotionVec.dot_smul, mul_comm]
    rw [Finset.sum_congr rfl fun k _ => e' k]
    unfold MultiBody.dofSum
    rw [Finset.sum_comm]
    refine Finset.sum_congr rfl fun j _ => ?_
    rw [Finset.sum_comm]
    refine Finset.sum_congr rfl fun b _ => ?_
    dsimp only
    rw [Finset.sum_mul]
  simp only [e]
  exact wf.power alpha _

end spec

section positions

theorem MultiBody.dofPosAt_succ {i : Nat} (hi : i < mb.joints.length) : mb.dofPosAt (i + 1) = mb.dofPosAt i + mb.dofAt i := by
  unfold MultiBody.dofPosAt MultiBody.dofAt
  rw [map_take_sum_succ _ hi]
  simp [hi]

theorem MultiBody.dofPosAt_mono {i j : Nat} (h : i ≤ j) : mb.dofPosAt i ≤ mb.dofPosAt j := by
  unfold MultiBody.dofPosAt
  rw [List.map_take, List.map_take]
  exact take_sum_mono _ h

theorem MultiBody.WF.dofPosAt_add_le (wf : mb.WF) {i : Nat} (hi : i < mb.bodies.length) :
    mb.dofPosAt i + mb.dofAt i ≤ mb.nrDof := by
  rw [← mb.dofPosAt_succ (by rw [wf.njoints]; exact hi), wf.nDof, MultiBody.dofPosAt, List.map_take]
  exact take_sum_le _ _

theorem MultiBody.WF.dofPosAt_total (wf : mb.WF) : mb.dofPosAt mb.bodies.length = mb.nrDof := by
  rw [MultiBody.dofPosAt, ← wf.njoints, List.take_length, wf.nDof]

/-- The segments of the joints do not overlap. -/
theorem MultiBody.WF.in_segment (wf : mb.WF) {i j a : Nat} (hi : i < mb.bodies.length) (hj : j < mb.bodies.length)
    (ha : a < mb.dofAt j) : (mb.dofPosAt i ≤ mb.dofPosAt j + a ∧ mb.dofPosAt j + a < mb.dofPosAt i + mb.dofAt i) ↔ i = j := by
  have h1 := mb.dofPosAt_succ (i := i) (by rw [wf.njoints]; exact hi)
  have h2 := mb.dofPosAt_succ (i := j) (by rw [wf.njoints]; exact hj)
  constructor
  · rintro ⟨h3, h4⟩
    rcases Nat.lt_trichotomy i j with h | h | h
    · have := mb.dofPosAt_mono (i := i + 1) (j := j) h; omega
    · exact h
    · have := mb.dofPosAt_mono (i := j + 1) (j := i) h; omega
  · rintro rfl; omega

/-- A sum over the entries of a flattened vector is a sum over joints and their degrees of freedom. -/
theorem MultiBody.WF.sum_range_dof {M : Type} [AddCommMonoid M] (wf : mb.WF) (g : Nat → M) :
    ∑ c ∈ Finset.range mb.nrDof, g c = mb.dofSum fun i a => g (mb.dofPosAt i + a) := by
  rw [← wf.dofPosAt_total, MultiBody.dofSum]
  have : ∀ m, m ≤ mb.bodies.length → ∑ c ∈ Finset.range (mb.dofPosAt m), g c =
      ∑ i ∈ Finset.range m, ∑ a ∈ Finset.range (mb.dofAt i), g (mb.dofPosAt i + a) := by
    intro m
    induction m with
    | zero => intro _; simp [MultiBody.dofPosAt]
    | succ m ih =>
      intro hm
      rw [Finset.sum_range_succ, ← ih (by omega), mb.dofPosAt_succ (by rw [wf.njoints]; exact hm), Finset.sum_range_add]
  exact this _ le_rfl

/-- Every index of a flattened vector belongs to a joint. -/
theorem MultiBody.WF.exists_segment (wf : mb.WF) {r : Nat} (hr : r < mb.nrDof) :
    ∃ i a, i < mb.bodies.length ∧ a < mb.dofAt i ∧ r = mb.dofPosAt i + a := by
  have : ∀ m, m ≤ mb.bodies.length → r < mb.dofPosAt m → ∃ i a, i < m ∧ a < mb.dofAt i ∧ r = mb.dofPosAt i + a := by
    intro m
    induction m with
    | zero => intro _ h; simp [MultiBody.dofPosAt] at h
    | succ m ih =>
      intro hm h
      rw [mb.dofPosAt_succ (by rw [wf.njoints]; exact hm)] at h
      by_cases h' : r < mb.dofPosAt m
      · obtain ⟨i, a, h1, h2, h3⟩ := ih (by omega) h'
        exact ⟨i, a, by omega, h2, h3⟩
      · exact ⟨m, r - mb.dofPosAt m, by omega, by omega, by omega⟩
  exact this _ le_rfl (by rw [wf.dofPosAt_total]; exact hr)

theorem SizedDof.flatten_length (wf : mb.WF) {v : List (List K)} (h : SizedDof mb v) : v.flatten.length = mb.nrDof := by
  rw [flatten_length_eq, h, wf.nDof]

theorem SizedDof.flatten_getD (wf : mb.WF) {v : List (List K)} (h : SizedDof mb v) {i a : Nat} (hi : i < mb.bodies.length)
    (ha : a < mb.dofAt i) : v.flatten[mb.dofPosAt i + a]? = some (entry v i a) := by
  have hil : i < v.length := by rw [h.length, wf.njoints]; exact hi
  have hij : i < mb.joints.length := by rw [wf.njoints]; exact hi
  have hl : v[i].length = mb.dofAt i := by
    rw [h.get (List.getElem?_eq_getElem hil) (List.getElem?_eq_getElem hij)]; simp [MultiBody.dofAt, hij]
  have e : ((v.take i).map List.length).sum = mb.dofPosAt i := by
    unfold SizedDof at h
    rw [MultiBody.dofPosAt, List.map_take, h, ← List.map_take]
  have hx : v[i][a]? = some (entry v i a) := by
    rw [entry, List.getElem?_eq_getElem hil, Option.getD_some, List.getD_eq_getElem?_getD,
      List.getElem?_eq_getElem (by omega), Option.getD_some]
  rw [← e]
  exact flatten_getElem? v (List.getElem?_eq_getElem hil) hx

end positions

end RBDyn
