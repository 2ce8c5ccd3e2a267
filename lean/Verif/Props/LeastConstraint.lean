import Verif.Props.Units

/-! Property C85: the accelerations of forward dynamics satisfy d'Alembert's principle and are those of least constraint, depend linearly on
torques, forces and gravity, and the response to torques and forces is reciprocal. -/

namespace RBDyn

section
variable {K : Type} [Scalar K] {mb : MultiBody K} {m : MBC K}

/-- A state of a robot for which forward dynamics is called with an exact linear solve: inertias are positive definite, no joint has a zero column. -/
structure FDCase (mb : MultiBody K) (m : MBC K) (fd : FD K) (solve : DMat K → List K → List K) : Prop where
  wf : mb.WF
  rigid : mb.Rigid
  sized : m.Sized mb
  valid : ValidQ mb m.q
  ready : m.VelReady mb
  fits : fd.Fits mb
  inertia : ∀ b ∈ mb.bodies, ∀ v : MotionVec K, v ≠ 0 → 0 < v.dot (b.inertia.mulMotion v)
  subspace : ∀ j ∈ mb.joints, ∀ c ∈ j.S, c ≠ 0
  exact_solve : ∀ fd₁, fd.computeH mb m = .ok fd₁ → ExactSolve solve fd₁.H

/-- The wrench that body `k` needs in the state `m` with the joint accelerations `r`. -/
def MBC.netAt (mb : MultiBody K) (m : MBC K) (r : List (List K)) (k : Nat) : ForceVec K :=
  mb.netForceAt m.q m.alpha r ⟨0, m.gravity⟩ m.forceAt k

/-- The power of the joint torques `τ` along the joint velocities `δ`. -/
def MultiBody.pairing (mb : MultiBody K) (δ τ : List (List K)) : K := mb.dofSum fun i a => entry δ i a * entry τ i a

/-- Gauss's function of the joint accelerations `r` in the state `m` (up to a constant, the constraint: the sum over the bodies of the squared
deviation from the free motion, measured by the inertia): `Σ_k ½ a·I a + a·(v ×* I v - f) - r·τ`. -/
def MBC.constraintAt (mb : MultiBody K) (m : MBC K) (r : List (List K)) : K :=
  (∑ k ∈ Finset.range mb.bodies.length,
    ((mb.accAt m.q m.alpha r ⟨0, m.gravity⟩ k).dot ((mb.inertiaAt k).mulMotion (mb.accAt m.q m.alpha r ⟨0, m.gravity⟩ k)) / 2 +
      (mb.accAt m.q m.alpha r ⟨0, m.gravity⟩ k).dot
        ((mb.velAt m.q m.alpha k).crossDual ((mb.inertiaAt k).mulMotion (mb.velAt m.q m.alpha k)) - (mb.posAt m.q k).dualMul (m.forceAt k)))) -
    mb.pairing r m.jointTorque

/-! ### Vectors by their entries -/

/-- The vector with the entries `f`. -/
def MultiBody.ofEntries (mb : MultiBody K) (f : Nat → Nat → K) : List (List K) :=
  (List.range mb.bodies.length).map fun i => (List.range (mb.dofAt i)).map (f i)

theorem MultiBody.ofEntries_sized (wf : mb.WF) (f : Nat → Nat → K) : SizedDof mb (mb.ofEntries f) := by
  unfold SizedDof MultiBody.ofEntries
  refine List.ext_getElem? fun i => ?_
  by_cases hi : i < mb.bodies.length
  · obtain ⟨j, hj, -⟩ := wf.joint_get hi
    simp [hi, hj, MultiBody.dofAt]
  · have : mb.joints.length ≤ i := by rw [wf.njoints]; omega
    simp [hi, this]

theorem MultiBody.entry_ofEntries (mb : MultiBody K) (f : Nat → Nat → K) {i a : Nat} (hi : i < mb.bodies.length) (ha : a < mb.dofAt i) :
    entry (mb.ofEntries f) i a = f i a := by
  unfold entry MultiBody.ofEntries
  rw [range_map_getElem? hi, Option.getD_some, List.getD_eq_getElem?_getD, range_map_getElem? ha, Option.getD_some]

theorem SizedDof.ext_entry (wf : mb.WF) {v w : List (List K)} (hv : SizedDof mb v) (hw : SizedDof mb w)
    (h : ∀ i a, i < mb.bodies.length → a < mb.dofAt i → entry v i a = entry w i a) : v = w := by
  refine blocks_ext (hv.trans hw.symm) (List.ext_getElem? fun r => ?_)
  by_cases hr : r < mb.nrDof
  · obtain ⟨i, a, hi, ha, rfl⟩ := wf.exists_segment hr
    rw [hv.flatten_getD wf hi ha, hw.flatten_getD wf hi ha, h i a hi ha]
  · have h1 := hv.flatten_length wf
    have h2 := hw.flatten_length wf
    rw [List.getElem?_eq_none (by omega), List.getElem?_eq_none (by omega)]

theorem MultiBody.WF.velAt_entries (wf : mb.WF) (q : List (List K)) (f : Nat → Nat → K) (k : Nat) :
    mb.velAt q (mb.ofEntries f) k = mb.dofSum fun i b => f i b • mb.colAt q k i b := by
  rw [wf.velAt_eq]
  exact dofSum_congr fun i b hi hb => by rw [mb.entry_ofEntries f hi hb]

/-- The difference of two accelerations of a body is the velocity for the difference of the joint accelerations. -/
theorem MultiBody.WF.accAt_diff (wf : mb.WF) (q α r r' : List (List K)) (a0 : MotionVec K) (k : Nat) :
    mb.accAt q α r' a0 k = mb.accAt q α r a0 k + mb.velAt q (mb.ofEntries fun i a => entry r' i a - entry r i a) k := by
  rw [wf.accAt_eq α r', wf.accAt_eq α r, wf.velAt_entries, add_assoc]
  congr 1
  unfold MultiBody.dofSum
  rw [← Finset.sum_add_distrib]
  refine Finset.sum_congr rfl fun i _ => ?_
  rw [← Finset.sum_add_distrib]
  refine Finset.sum_congr rfl fun b _ => ?_
  dsimp only
  rw [← add_smul]
  congr 1
  ring

/-! ### D'Alembert's principle -/

theorem FDCase.torque {fd : FD K} {solve : DMat K → List K → List K} (H : FDCase mb m fd solve) :
    ∃ fd' r, fd.forwardDynamics solve mb m = .ok (fd', { m with alphaD := r }) ∧ SizedDof mb r ∧
      ∀ i a, i < mb.bodies.length → a < mb.dofAt i →
        entry m.jointTorque i a = ((mb.SAt i).getD a 0).dot (mb.wrenchAt m.q (m.netAt mb r) i) := by
  obtain ⟨fd', m₁, d', m', e1, e2, -, sz, e3, e4⟩ := C27_forward_then_inverse H.wf H.rigid H.sized H.valid H.ready
    (d := ⟨List.replicate mb.nrBodies 0⟩) (by simp) H.fits H.exact_solve
  have hm : m₁ = { m with alphaD := m₁.alphaD } := by
    rw [← e2]
  refine ⟨fd', m₁.alphaD, by rw [e1, ← hm], sz.alphaD, fun i a hi ha => ?_⟩
  rw [hm] at e3
  have sz' : MBC.Sized mb { m with alphaD := m₁.alphaD } := { H.sized with alphaD := sz.alphaD }
  have hsp : SamePosVel { m with alphaD := m₁.alphaD } m := rfl
  obtain ⟨hv', hq'⟩ := hsp.ready H.ready H.valid
  rw [id_eq H.wf H.rigid sz' hq' hv' (by simp [MultiBody.nrBodies]) rfl] at e3
  cases e3
  rw [← e4, entry_torque H.wf hi ha]
  rfl

theorem FDCase.ofTorque {fd : FD K} {solve : DMat K → List K → List K} (H : FDCase mb m fd solve) {r : List (List K)} (hs : SizedDof mb r)
    (h : ∀ i a, i < mb.bodies.length → a < mb.dofAt i →
      entry m.jointTorque i a = ((mb.SAt i).getD a 0).dot (mb.wrenchAt m.q (m.netAt mb r) i)) :
    ∃ fd', fd.forwardDynamics solve mb m = .ok (fd', { m with alphaD := r }) := by
  have sz' : MBC.Sized mb { m with alphaD := r } := { H.sized with alphaD := hs }
  have hsp : SamePosVel { m with alphaD := r } m := rfl
  obtain ⟨hv', hq'⟩ := hsp.ready H.ready H.valid
  have hd : (⟨List.replicate mb.nrBodies 0⟩ : ID K).f.length = mb.nrBodies := by simp
  have e := id_eq H.wf H.rigid sz' hq' hv' hd rfl
  refine fd_unique H.wf H.rigid H.sized H.valid H.ready hd H.fits H.inertia H.subspace H.exact_solve hs e ?_
  obtain ⟨d'', m'', e6, -, -, -, -, sz''⟩ := C26_inverse_dynamics H.wf H.rigid sz' hq' hv' hd
  rw [e] at e6
  cases e6
  refine SizedDof.ext_entry H.wf sz''.jointTorque H.sized.jointTorque fun i a hi ha => ?_
  rw [h i a hi ha]
  exact entry_torque H.wf hi ha

/-- Virtual work for the accelerations `r`. -/
def VirtualWork (mb : MultiBody K) (m : MBC K) (r : List (List K)) : Prop :=
  ∀ δ : List (List K), mb.pairing δ m.jointTorque = ∑ k ∈ Finset.range mb.bodies.length, (mb.velAt m.q δ k).dot (m.netAt mb r k)

theorem virtualWork_of (wf : mb.WF) {r : List (List K)} (h : ∀ i a, i < mb.bodies.length → a < mb.dofAt i →
    entry m.jointTorque i a = ((mb.SAt i).getD a 0).dot (mb.wrenchAt m.q (m.netAt mb r) i)) : VirtualWork mb m r := by
  intro δ
  rw [← wf.power]
  exact dofSum_congr fun i a hi ha => by rw [h i a hi ha]

theorem VirtualWork.torque (wf : mb.WF) {r : List (List K)} (h : VirtualWork mb m r) {i a : Nat} (hi : i < mb.bodies.length) (ha : a < mb.dofAt i) :
    entry m.jointTorque i a = ((mb.SAt i).getD a 0).dot (mb.wrenchAt m.q (m.netAt mb r) i) := by
  have e := h (mb.ofEntries fun i' a' => if i' = i ∧ a' = a then 1 else 0)
  rw [← wf.power] at e
  have key : ∀ g : Nat → Nat → K, (mb.dofSum fun i' a' => entry (mb.ofEntries fun i' a' => if i' = i ∧ a' = a then (1 : K) else 0) i' a' * g i' a') = g i a := by
    intro g
    rw [dofSum_congr (h := fun i' a' => if i' = i ∧ a' = a then g i' a' else 0) fun i' a' hi' ha' => by
      rw [mb.entry_ofEntries _ hi' ha']; split <;> simp]
    unfold MultiBody.dofSum
    rw [Finset.sum_eq_single_of_mem i (Finset.mem_range.2 hi), Finset.sum_eq_single_of_mem a (Finset.mem_range.2 ha)]
    · simp
    · intro b _ hb
      simp [hb]
    · intro b _ hb
      exact Finset.sum_eq_zero fun c _ => by simp [hb]
  unfold MultiBody.pairing at e
  rwa [key, key] at e

/-- C85 (d'Alembert): forward dynamics finds the accelerations for which, for every virtual velocity of the joints, the power of the joint torques is the
power of the inertial forces minus that of gravity and of the external forces; there are no others. -/
theorem C85_virtual_work {fd : FD K} {solve : DMat K → List K → List K} (H : FDCase mb m fd solve) :
    ∃ fd' r, fd.forwardDynamics solve mb m = .ok (fd', { m with alphaD := r }) ∧ SizedDof mb r ∧ VirtualWork mb m r ∧
      ∀ r', SizedDof mb r' → VirtualWork mb m r' → r' = r := by
  obtain ⟨fd', r, e, hs, h⟩ := H.torque
  refine ⟨fd', r, e, hs, virtualWork_of H.wf h, fun r' hs' h' => ?_⟩
  obtain ⟨fd'', e'⟩ := H.ofTorque hs' fun i a hi ha => h'.torque H.wf hi ha
  rw [e] at e'
  cases e'
  rfl

/-! ### Least constraint -/

/-- Gauss's function for other accelerations. -/
theorem constraint_diff (wf : mb.WF) {r : List (List K)} (h : VirtualWork mb m r) (r' : List (List K)) :
    m.constraintAt mb r' = m.constraintAt mb r + (∑ k ∈ Finset.range mb.bodies.length,
      (mb.velAt m.q (mb.ofEntries fun i a => entry r' i a - entry r i a) k).dot
        ((mb.inertiaAt k).mulMotion (mb.velAt m.q (mb.ofEntries fun i a => entry r' i a - entry r i a) k))) / 2 := by
  have hw := h (mb.ofEntries fun i a => entry r' i a - entry r i a)
  have hp : mb.pairing (mb.ofEntries fun i a => entry r' i a - entry r i a) m.jointTorque = mb.pairing r' m.jointTorque - mb.pairing r m.jointTorque := by
    unfold MultiBody.pairing
    rw [dofSum_congr (h := fun i a => entry r' i a * entry m.jointTorque i a - entry r i a * entry m.jointTorque i a) fun i a hi ha => by
      rw [mb.entry_ofEntries _ hi ha, sub_mul]]
    unfold MultiBody.dofSum
    simp only [Finset.sum_sub_distrib]
  rw [hp] at hw
  have e : mb.pairing r' m.jointTorque = mb.pairing r m.jointTorque + ∑ k ∈ Finset.range mb.bodies.length,
      (mb.velAt m.q (mb.ofEntries fun i a => entry r' i a - entry r i a) k).dot (m.netAt mb r k) := by rw [← hw]; ring
  unfold MBC.constraintAt
  rw [e]
  have hk : ∀ k, ∀ a' a w : MotionVec K, ∀ p : ForceVec K, a' = a + w →
      a'.dot ((mb.inertiaAt k).mulMotion a') / 2 + a'.dot p =
        (a.dot ((mb.inertiaAt k).mulMotion a) / 2 + a.dot p) + (w.dot ((mb.inertiaAt k).mulMotion a + p) + (1 / 2) * w.dot ((mb.inertiaAt k).mulMotion w)) := by
    rintro k _ a w p rfl
    have := RBInertia.dot_mulMotion_comm (mb.inertiaAt k) a w
    rw [RBInertia.mulMotion_add]
    simp only [MotionVec.add_dot, MotionVec.dot_add, this]
    ring
  have hn : ∀ k, m.netAt mb r k = (mb.inertiaAt k).mulMotion (mb.accAt m.q m.alpha r ⟨0, m.gravity⟩ k) +
      ((mb.velAt m.q m.alpha k).crossDual ((mb.inertiaAt k).mulMotion (mb.velAt m.q m.alpha k)) - (mb.posAt m.q k).dualMul (m.forceAt k)) := by
    intro k
    unfold MBC.netAt MultiBody.netForceAt
    abel
  rw [Finset.sum_congr rfl fun k _ => hk k _ _ _ _ (wf.accAt_diff m.q m.alpha r r' ⟨0, m.gravity⟩ k)]
  simp only [Finset.sum_add_distrib, ← Finset.mul_sum, hn]
  ring

theorem inertiaAt_nonneg (hI : ∀ b ∈ mb.bodies, ∀ v : MotionVec K, v ≠ 0 → 0 < v.dot (b.inertia.mulMotion v)) {k : Nat} (hk : k < mb.bodies.length)
    (v : MotionVec K) : 0 ≤ v.dot ((mb.inertiaAt k).mulMotion v) ∧ (v.dot ((mb.inertiaAt k).mulMotion v) = 0 → v = 0) := by
  have e : mb.inertiaAt k = mb.bodies[k].inertia := by simp [MultiBody.inertiaAt, hk]
  rw [e]
  by_cases hv : v = 0
  · subst hv
    simp
  · have := hI _ (List.getElem_mem hk) v hv
    exact ⟨this.le, fun h => absurd h this.ne'⟩

/-- Joint accelerations with the same body accelerations need the same torques. -/
theorem VirtualWork.congr (wf : mb.WF) {r r' : List (List K)} (h : VirtualWork mb m r)
    (e : ∀ k, k < mb.bodies.length → mb.velAt m.q (mb.ofEntries fun i a => entry r' i a - entry r i a) k = 0) : VirtualWork mb m r' := by
  intro δ
  rw [h δ]
  refine Finset.sum_congr rfl fun k hk => ?_
  unfold MBC.netAt MultiBody.netForceAt
  rw [wf.accAt_diff m.q m.alpha r r', e k (Finset.mem_range.1 hk), add_zero]

/-- C85 (Gauss): among all joint accelerations, those of forward dynamics have the least constraint, and no others have. -/
theorem C85_least_constraint {fd : FD K} {solve : DMat K → List K → List K} (H : FDCase mb m fd solve) :
    ∃ fd' r, fd.forwardDynamics solve mb m = .ok (fd', { m with alphaD := r }) ∧ SizedDof mb r ∧
      ∀ r', SizedDof mb r' → m.constraintAt mb r ≤ m.constraintAt mb r' ∧ (m.constraintAt mb r' = m.constraintAt mb r → r' = r) := by
  obtain ⟨fd', r, e, hs, h, hu⟩ := C85_virtual_work H
  refine ⟨fd', r, e, hs, fun r' hs' => ?_⟩
  have hd := constraint_diff H.wf h r'
  have hk := fun k (hk : k ∈ Finset.range mb.bodies.length) => inertiaAt_nonneg H.inertia (Finset.mem_range.1 hk)
    (mb.velAt m.q (mb.ofEntries fun i a => entry r' i a - entry r i a) k)
  have h0 := Finset.sum_nonneg fun k h => (hk k h).1
  refine ⟨by rw [hd]; linarith, fun he => hu r' hs' (h.congr H.wf fun k hk' => ?_)⟩
  rw [hd] at he
  have hz := (Finset.sum_eq_zero_iff_of_nonneg fun k h => (hk k h).1).1 (by linarith) k (Finset.mem_range.2 hk')
  exact (hk k (Finset.mem_range.2 hk')).2 hz

/-! ### Superposition -/

/-- The torques, forces and gravity of `m₃` are on the line through those of `m₁` and `m₂`; positions and velocities are the same. -/
structure OnLine (s : K) (mb : MultiBody K) (m₁ m₂ m₃ : MBC K) : Prop where
  q₂ : m₂.q = m₁.q
  q₃ : m₃.q = m₁.q
  alpha₂ : m₂.alpha = m₁.alpha
  alpha₃ : m₃.alpha = m₁.alpha
  torque : ∀ i a, i < mb.bodies.length → a < mb.dofAt i →
    entry m₃.jointTorque i a = (1 - s) * entry m₁.jointTorque i a + s * entry m₂.jointTorque i a
  force : ∀ k, k < mb.bodies.length → m₃.forceAt k = (1 - s) • m₁.forceAt k + s • m₂.forceAt k
  gravity : m₃.gravity = (1 - s) • m₁.gravity + s • m₂.gravity

/-- C85 (superposition): the accelerations are on the line, too, at the same place. -/
theorem C85_superposition {m₁ m₂ m₃ : MBC K} {fd₁ fd₂ fd₃ : FD K} {solve₁ solve₂ solve₃ : DMat K → List K → List K} (H₁ : FDCase mb m₁ fd₁ solve₁)
    (H₂ : FDCase mb m₂ fd₂ solve₂) (H₃ : FDCase mb m₃ fd₃ solve₃) {s : K} (h : OnLine s mb m₁ m₂ m₃) :
    ∃ fd₁' fd₂' fd₃' r₁ r₂ r₃, fd₁.forwardDynamics solve₁ mb m₁ = .ok (fd₁', { m₁ with alphaD := r₁ }) ∧
      fd₂.forwardDynamics solve₂ mb m₂ = .ok (fd₂', { m₂ with alphaD := r₂ }) ∧ fd₃.forwardDynamics solve₃ mb m₃ = .ok (fd₃', { m₃ with alphaD := r₃ }) ∧
      ∀ i a, i < mb.bodies.length → a < mb.dofAt i → entry r₃ i a = (1 - s) * entry r₁ i a + s * entry r₂ i a := by
  obtain ⟨fd₁', r₁, e₁, -, t₁⟩ := H₁.torque
  obtain ⟨fd₂', r₂, e₂, -, t₂⟩ := H₂.torque
  have wf := H₁.wf
  obtain ⟨fd₃', e₃⟩ := H₃.ofTorque (mb.ofEntries_sized wf fun i a => (1 - s) * entry r₁ i a + s * entry r₂ i a) fun i a hi ha => by
    rw [h.torque i a hi ha, t₁ i a hi ha, t₂ i a hi ha, h.q₂, h.q₃, mb.dot_wrenchAt, mb.dot_wrenchAt, mb.dot_wrenchAt, Finset.mul_sum, Finset.mul_sum,
      ← Finset.sum_add_distrib]
    refine Finset.sum_congr rfl fun k hk => ?_
    have hacc : mb.accAt m₁.q m₁.alpha (mb.ofEntries fun i a => (1 - s) * entry r₁ i a + s * entry r₂ i a) ⟨0, m₃.gravity⟩ k =
        (1 - s) • mb.accAt m₁.q m₁.alpha r₁ ⟨0, m₁.gravity⟩ k + s • mb.accAt m₁.q m₁.alpha r₂ ⟨0, m₂.gravity⟩ k := by
      have hg : (⟨0, m₃.gravity⟩ : MotionVec K) = (1 - s) • ⟨0, m₁.gravity⟩ + s • ⟨0, m₂.gravity⟩ := by
        rw [h.gravity]
        ext <;> simp
      have hb : ∀ a0 : MotionVec K, mb.accAt m₁.q m₁.alpha [] a0 k = mb.accAt m₁.q m₁.alpha [] 0 k + (mb.posAt m₁.q k).mulMotion a0 := by
        intro a0
        unfold MultiBody.accAt
        rw [PTransform.mulMotion_zero]
        abel
      rw [wf.accAt_eq, wf.accAt_eq m₁.alpha r₁, wf.accAt_eq m₁.alpha r₂, ← wf.velAt_eq, wf.velAt_entries, hb, hb ⟨0, m₁.gravity⟩, hb ⟨0, m₂.gravity⟩, hg,
        PTransform.mulMotion_add, PTransform.mulMotion_smul, PTransform.mulMotion_smul]
      have hsum : (mb.dofSum fun i b => ((1 - s) * entry r₁ i b + s * entry r₂ i b) • mb.colAt m₁.q k i b) =
          (1 - s) • (mb.dofSum fun i b => entry r₁ i b • mb.colAt m₁.q k i b) + s • mb.dofSum fun i b => entry r₂ i b • mb.colAt m₁.q k i b := by
        unfold MultiBody.dofSum
        simp only [Finset.smul_sum, ← Finset.sum_add_distrib, smul_smul, ← add_smul]
      rw [hsum]
      simp only [smul_add, sub_smul, one_smul]
      abel
    unfold MBC.netAt MultiBody.netForceAt
    rw [h.q₂, h.q₃, h.alpha₂, h.alpha₃, hacc, h.force k (Finset.mem_range.1 hk), RBInertia.mulMotion_add, RBInertia.mulMotion_smul, RBInertia.mulMotion_smul,
      PTransform.dualMul_add, PTransform.dualMul_smul, PTransform.dualMul_smul]
    simp only [MotionVec.dot_add, MotionVec.dot_sub, MotionVec.dot_smul]
    ring
  refine ⟨fd₁', fd₂', fd₃', r₁, r₂, _, e₁, e₂, e₃, fun i a hi ha => mb.entry_ofEntries _ hi ha⟩

/-! ### Reciprocity -/

/-- C85 (reciprocity and passivity): let `m₁` and `m₂` differ from `m₀` in torques and external forces only. The power of the first change along the
change of acceleration caused by the second is the power of the second along the change caused by the first; in particular the mass matrix of forward
dynamics has a symmetric inverse. The power of a change along its own effect is positive, unless there is no effect. -/
theorem C85_reciprocity {m₀ m₁ m₂ : MBC K} {fd₀ fd₁ fd₂ : FD K} {solve₀ solve₁ solve₂ : DMat K → List K → List K} (H₀ : FDCase mb m₀ fd₀ solve₀)
    (H₁ : FDCase mb m₁ fd₁ solve₁) (H₂ : FDCase mb m₂ fd₂ solve₂) (q₁ : m₁.q = m₀.q) (q₂ : m₂.q = m₀.q) (al₁ : m₁.alpha = m₀.alpha)
    (al₂ : m₂.alpha = m₀.alpha) (g₁ : m₁.gravity = m₀.gravity) (g₂ : m₂.gravity = m₀.gravity) :
    ∃ fd₀' fd₁' fd₂' r₀ r₁ r₂, fd₀.forwardDynamics solve₀ mb m₀ = .ok (fd₀', { m₀ with alphaD := r₀ }) ∧
      fd₁.forwardDynamics solve₁ mb m₁ = .ok (fd₁', { m₁ with alphaD := r₁ }) ∧ fd₂.forwardDynamics solve₂ mb m₂ = .ok (fd₂', { m₂ with alphaD := r₂ }) ∧
      let A := fun (r : List (List K)) (k : Nat) => mb.accAt m₀.q m₀.alpha r ⟨0, m₀.gravity⟩ k
      let P := fun (r : List (List K)) (m : MBC K) => (mb.dofSum fun i a => (entry r i a - entry r₀ i a) * (entry m.jointTorque i a - entry m₀.jointTorque i a)) +
        ∑ k ∈ Finset.range mb.bodies.length, (A r k - A r₀ k).dot ((mb.posAt m₀.q k).dualMul (m.forceAt k - m₀.forceAt k))
      P r₂ m₁ = P r₁ m₂ ∧ 0 ≤ P r₁ m₁ ∧ (P r₁ m₁ = 0 → r₁ = r₀) := by
  obtain ⟨fd₀', r₀, e₀, s₀, v₀, u₀⟩ := C85_virtual_work H₀
  obtain ⟨fd₁', r₁, e₁, s₁, v₁, u₁⟩ := C85_virtual_work H₁
  obtain ⟨fd₂', r₂, e₂, s₂, v₂, u₂⟩ := C85_virtual_work H₂
  refine ⟨fd₀', fd₁', fd₂', r₀, r₁, r₂, e₀, e₁, e₂, ?_⟩
  intro A P
  have wf := H₀.wf
  let w := fun (r : List (List K)) (k : Nat) => mb.velAt m₀.q (mb.ofEntries fun i a => entry r i a - entry r₀ i a) k
  have hA : ∀ r k, A r k - A r₀ k = w r k := fun r k => sub_eq_of_eq_add' (wf.accAt_diff m₀.q m₀.alpha r₀ r ⟨0, m₀.gravity⟩ k)
  -- the power of a change is the inertial product of the two changes of acceleration
  have key : ∀ (r r' : List (List K)) (m : MBC K), VirtualWork mb m r' → m.q = m₀.q → m.alpha = m₀.alpha → m.gravity = m₀.gravity →
      P r m = ∑ k ∈ Finset.range mb.bodies.length, (w r k).dot ((mb.inertiaAt k).mulMotion (w r' k)) := by
    intro r r' m v hq ha hg
    have h1 := v (mb.ofEntries fun i a => entry r i a - entry r₀ i a)
    have h0 := v₀ (mb.ofEntries fun i a => entry r i a - entry r₀ i a)
    have hd : (mb.dofSum fun i a => (entry r i a - entry r₀ i a) * (entry m.jointTorque i a - entry m₀.jointTorque i a)) =
        mb.pairing (mb.ofEntries fun i a => entry r i a - entry r₀ i a) m.jointTorque -
          mb.pairing (mb.ofEntries fun i a => entry r i a - entry r₀ i a) m₀.jointTorque := by
      unfold MultiBody.pairing
      rw [dofSum_congr (g := fun i a => entry (mb.ofEntries fun i a => entry r i a - entry r₀ i a) i a * entry m.jointTorque i a)
          (h := fun i a => (entry r i a - entry r₀ i a) * entry m.jointTorque i a) fun i a hi ha => by rw [mb.entry_ofEntries _ hi ha],
        dofSum_congr (g := fun i a => entry (mb.ofEntries fun i a => entry r i a - entry r₀ i a) i a * entry m₀.jointTorque i a)
          (h := fun i a => (entry r i a - entry r₀ i a) * entry m₀.jointTorque i a) fun i a hi ha => by rw [mb.entry_ofEntries _ hi ha]]
      unfold MultiBody.dofSum
      simp only [← Finset.sum_sub_distrib, ← mul_sub]
    show _ + _ = _
    rw [hd, h1, h0, hq, ← Finset.sum_sub_distrib, ← Finset.sum_add_distrib]
    refine Finset.sum_congr rfl fun k _ => ?_
    rw [hA]
    show (w r k).dot _ - (w r k).dot _ + _ = _
    have hn : m.netAt mb r' k = m₀.netAt mb r₀ k + (mb.inertiaAt k).mulMotion (w r' k) - (mb.posAt m₀.q k).dualMul (m.forceAt k - m₀.forceAt k) := by
      unfold MBC.netAt MultiBody.netForceAt
      rw [hq, ha, hg, wf.accAt_diff m₀.q m₀.alpha r₀ r', RBInertia.mulMotion_add]
      have e : (mb.posAt m₀.q k).dualMul (m.forceAt k) = (mb.posAt m₀.q k).dualMul (m.forceAt k - m₀.forceAt k) + (mb.posAt m₀.q k).dualMul (m₀.forceAt k) := by
        rw [← PTransform.dualMul_add, sub_add_cancel]
      rw [e]
      abel
    rw [hn]
    simp only [MotionVec.dot_add, MotionVec.dot_sub]
    ring
  have k1 := key r₂ r₁ m₁ v₁ q₁ al₁ g₁
  have k2 := key r₁ r₂ m₂ v₂ q₂ al₂ g₂
  have k3 := key r₁ r₁ m₁ v₁ q₁ al₁ g₁
  have hk := fun k (hk : k ∈ Finset.range mb.bodies.length) => inertiaAt_nonneg H₀.inertia (Finset.mem_range.1 hk) (w r₁ k)
  refine ⟨?_, ?_, fun hz => ?_⟩
  · rw [k1, k2]
    exact Finset.sum_congr rfl fun k _ => RBInertia.dot_mulMotion_comm _ _ _
  · rw [k3]
    exact Finset.sum_nonneg fun k h => (hk k h).1
  · rw [k3] at hz
    refine u₀ r₁ s₁ (v₀.congr wf fun k hk' => ?_)
    exact (hk k (Finset.mem_range.2 hk')).2 ((Finset.sum_eq_zero_iff_of_nonneg fun k h => (hk k h).1).1 hz k (Finset.mem_range.2 hk'))

end

/-! ### Examples -/

namespace Sample

/-- The sample state with other torques, forces and gravity. -/
def loaded (t u g : ℚ) : MBC ℚ :=
  { mbcV with
    jointTorque := mbcV.jointTorque.map fun l => l.map (· + t)
    force := mbcV.force.map (· + u • ⟨⟨1, 2, 3⟩, ⟨0, 1, -1⟩⟩)
    gravity := mbcV.gravity + g • ⟨1, 0, 2⟩ }

theorem loaded_case (t u g : ℚ) : ∃ solve, FDCase mb (loaded t u g) fd solve := by
  obtain ⟨h1, h2, h3⟩ := ready
  have hv : (loaded t u g).VelReady mb := ⟨⟨h1.parentToSon, h1.bodyPosW, h1.motionSubspace⟩, h1.jointVelocity, h1.bodyVelB, h1.bodyVelW⟩
  have hs : (loaded t u g).Sized mb := by
    refine { h2 with jointTorque := ?_, force := ?_ }
    · have := h2.jointTorque
      unfold SizedDof at this ⊢
      rw [← this]
      simp [loaded, Function.comp_def]
    · show (mbcV.force.map _).length = _
      rw [List.length_map]
      exact h2.force
  obtain ⟨solve, e⟩ := ExactSolve.exists_physical (m := loaded t u g) Sample.wf Sample.rigid h3 hv.toPosReady fd_fits inertia_pos subspace_ne
  exact ⟨solve, Sample.wf, Sample.rigid, hs, h3, hv, fd_fits, inertia_pos, subspace_ne, e⟩

theorem loaded_line : OnLine 3 mb (loaded 0 0 0) (loaded 1 1 1) (loaded 3 3 3) := by
  refine ⟨rfl, rfl, rfl, rfl, ?_, ?_, by decide +kernel⟩
  · have : ∀ i < mb.bodies.length, ∀ a < mb.dofAt i, entry (loaded 3 3 3).jointTorque i a =
        (1 - 3) * entry (loaded 0 0 0).jointTorque i a + 3 * entry (loaded 1 1 1).jointTorque i a := by decide +kernel
    exact fun i a hi ha => this i hi a ha
  · decide +kernel

example : ∃ solve fd' r, fd.forwardDynamics solve mb (loaded 1 1 1) = .ok (fd', { loaded 1 1 1 with alphaD := r }) ∧
    ∀ r', SizedDof mb r' → (loaded 1 1 1).constraintAt mb r ≤ (loaded 1 1 1).constraintAt mb r' := by
  obtain ⟨solve, H⟩ := loaded_case 1 1 1
  obtain ⟨fd', r, e, -, h⟩ := C85_least_constraint H
  exact ⟨solve, fd', r, e, fun r' hr => (h r' hr).1⟩

example : ∃ solve₁ solve₂ solve₃ fd₁ fd₂ fd₃ r₁ r₂ r₃, fd.forwardDynamics solve₁ mb (loaded 0 0 0) = .ok (fd₁, { loaded 0 0 0 with alphaD := r₁ }) ∧
    fd.forwardDynamics solve₂ mb (loaded 1 1 1) = .ok (fd₂, { loaded 1 1 1 with alphaD := r₂ }) ∧
    fd.forwardDynamics solve₃ mb (loaded 3 3 3) = .ok (fd₃, { loaded 3 3 3 with alphaD := r₃ }) ∧
    ∀ i a, i < mb.bodies.length → a < mb.dofAt i → entry r₃ i a = (1 - 3) * entry r₁ i a + 3 * entry r₂ i a := by
  obtain ⟨s1, H1⟩ := loaded_case 0 0 0
  obtain ⟨s2, H2⟩ := loaded_case 1 1 1
  obtain ⟨s3, H3⟩ := loaded_case 3 3 3
  exact ⟨s1, s2, s3, C85_superposition H1 H2 H3 loaded_line⟩

/-- A change of the torques and a change of the forces. -/
example : ∃ solve₀ solve₁ solve₂ fd₀ fd₁ fd₂ r₀ r₁ r₂, fd.forwardDynamics solve₀ mb (loaded 0 0 0) = .ok (fd₀, { loaded 0 0 0 with alphaD := r₀ }) ∧
    fd.forwardDynamics solve₁ mb (loaded 1 0 0) = .ok (fd₁, { loaded 1 0 0 with alphaD := r₁ }) ∧
    fd.forwardDynamics solve₂ mb (loaded 0 1 0) = .ok (fd₂, { loaded 0 1 0 with alphaD := r₂ }) := by
  obtain ⟨s0, H0⟩ := loaded_case 0 0 0
  obtain ⟨s1, H1⟩ := loaded_case 1 0 0
  obtain ⟨s2, H2⟩ := loaded_case 0 1 0
  obtain ⟨fd₀, fd₁, fd₂, r₀, r₁, r₂, e₀, e₁, e₂, -⟩ := C85_reciprocity H0 H1 H2 rfl rfl rfl rfl rfl rfl
  exact ⟨s0, s1, s2, fd₀, fd₁, fd₂, r₀, r₁, r₂, e₀, e₁, e₂⟩

end Sample

end RBDyn
