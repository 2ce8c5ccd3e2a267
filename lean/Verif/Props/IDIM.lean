import Verif.Lemmas.IDIM
import Verif.Props.Dynamics

/-! Properties C31 (regressor of inverse dynamics) and C32 (inverse statics). -/

namespace RBDyn
variable {K : Type} [Scalar K] {mb : MultiBody K}

/-! ### C31 -/

/-- C31: the ten inertial parameters describe an inertia without loss: reading them back gives the same inertia. -/
theorem C31_vector_roundtrip (a : RBInertia K) : vectorToInertia (inertiaToVector a) = .ok a := rfl

/-- C31: every vector of ten numbers is the parameter vector of the inertia read from it. -/
theorem C31_inertia_roundtrip (v : List K) (h : v.length = 10) :
    ∃ a, vectorToInertia v = .ok a ∧ inertiaToVector a = v := by
  match v, h with
  | [v0, v1, v2, v3, v4, v5, v6, v7, v8, v9], _ => exact ⟨_, rfl, rfl⟩

/-- C31: the checked version throws `out_of_range` exactly for vectors that do not have ten entries, and never reads outside the vector. -/
theorem C31_checked (v : List K) :
    (sVectorToInertia v = .error .outOfRange ↔ v.length ≠ 10) ∧ (v.length = 10 → ∃ a, sVectorToInertia v = .ok a ∧ vectorToInertia v = .ok a) := by
  unfold sVectorToInertia
  by_cases h : v.length = 10
  · obtain ⟨a, ha, -⟩ := C31_inertia_roundtrip v h
    simp [h, ha]
  · simp [h]

/-- The constructor of `IDIM` allocates a regressor that fits. -/
theorem C31_constructor (mb : MultiBody K) : (IDIM.mk' mb).Fits mb := ⟨rfl, rfl, fun _ _ _ _ _ _ _ _ _ => rfl⟩

/-- C31: run inverse dynamics, then compute the regressor `Y` from the configuration it leaves behind. Then `Y` times the stacked
inertial parameters of the bodies, minus the torques of the external forces alone (`inverseDynamicsNoInertia`), is the vector of
joint torques of inverse dynamics. The regressor can be used again afterwards. -/
theorem C31_regressor (wf : mb.WF) (hr : mb.Rigid) {mbc : MBC K} (sz : mbc.Sized mb) (hq : ValidQ mb mbc.q)
    (hv : mbc.VelReady mb) {d : ID K} (hd : d.f.length = mb.nrBodies) {y : IDIM K} (hy : y.Fits mb) (junk : Nat → K) :
    ∃ (d' : ID K) (m : MBC K) (y' : IDIM K) (φ : List K) (d₀ : ID K) (m₀ : MBC K), d.inverseDynamics mb mbc = .ok (d', m) ∧ y.computeY mb m = .ok y' ∧ y'.Fits mb ∧
      multiBodyToInertialVector junk mb = .ok φ ∧ φ.length = y'.Y.cols ∧ d.inverseDynamicsNoInertia mb mbc = .ok (d₀, m₀) ∧
      ∀ r, r < mb.nrDof → m.jointTorque.flatten[r]? = some (y'.Y.mulVecAt φ r - m₀.jointTorque.flatten.getD r 0) := by
  obtain ⟨d', m, e, -, -, -, -, sz'⟩ := C26_inverse_dynamics wf hr sz hq hv hd
  have e0 := idNoInertia_eq wf hr sz hq hv.toPosReady hd rfl
  have e1 := id_eq wf hr sz hq hv hd rfl
  rw [e1] at e
  cases e
  obtain ⟨y', ey, hY⟩ := computeY_eq wf hr hq (v := mb.velAt mbc.q mbc.alpha)
    (a := mb.accAt mbc.q mbc.alpha mbc.alphaD ⟨0, mbc.gravity⟩)
    (mbc := { mbc with
        bodyAccB := (List.range mb.bodies.length).map (mb.accAt mbc.q mbc.alpha mbc.alphaD ⟨0, mbc.gravity⟩)
        jointTorque := (List.range mb.bodies.length).map fun i => mb.project i (mb.wrenchAt mbc.q
          (mb.netForceAt mbc.q mbc.alpha mbc.alphaD ⟨0, mbc.gravity⟩ mbc.forceAt) i) })
    (by simp only [hv.parentToSon]; exact .of_range_map) (by simp only [hv.motionSubspace]; exact .of_range_map)
    (by simp only [hv.bodyVelB]; exact .of_range_map) .of_range_map hy
  refine ⟨_, _, y', _, _, _, e1, ey, hY.1, multiBodyToInertialVector_eq junk mb, ?_, e0, fun r hr' => ?_⟩
  · rw [hY.1.cols]
    generalize mb.bodies = l
    induction l with
    | nil => rfl
    | cons b l ih => rw [List.flatMap_cons, List.length_append, ih, inertiaToVector_length, List.length_cons]; omega
  · obtain ⟨i, a, hi, ha, rfl⟩ := wf.exists_segment hr'
    have hsz : ∀ f : Nat → ForceVec K, SizedDof mb ((List.range mb.bodies.length).map fun i => mb.project i (f i)) := by
      intro f
      have h1 := sz'.jointTorque
      unfold SizedDof at h1 ⊢
      rw [← h1]
      simp only [List.map_map, Function.comp_def, MultiBody.project, List.length_map]
    rw [sz'.jointTorque.flatten_getD wf hi ha, entry_torque wf hi ha, List.getD_eq_getElem?_getD (l := List.flatten _), (hsz _).flatten_getD wf hi ha,
      entry_torque wf hi ha, hY.mul wf hi ha, Option.getD_some, ← MotionVec.dot_sub]
    congr 2
    unfold MultiBody.wrenchAt
    rw [← Finset.sum_sub_distrib]
    refine Finset.sum_congr rfl fun k _ => ?_
    rw [← PTransform.transMul_sub]
    rfl

/-- C31 without external forces: `Y` times the stacked inertial parameters is the vector of joint torques of inverse dynamics. -/
theorem C31_regressor_free (wf : mb.WF) (hr : mb.Rigid) {mbc : MBC K} (sz : mbc.Sized mb) (hq : ValidQ mb mbc.q)
    (hv : mbc.VelReady mb) (hf : ∀ f ∈ mbc.force, f = 0) {d : ID K} (hd : d.f.length = mb.nrBodies) {y : IDIM K} (hy : y.Fits mb)
    (junk : Nat → K) :
    ∃ (d' : ID K) (m : MBC K) (y' : IDIM K) (φ : List K), d.inverseDynamics mb mbc = .ok (d', m) ∧ y.computeY mb m = .ok y' ∧
      multiBodyToInertialVector junk mb = .ok φ ∧
      ∀ r, r < mb.nrDof → m.jointTorque.flatten[r]? = some (y'.Y.mulVecAt φ r) := by
  obtain ⟨d', m, y', φ, d₀, m₀, e1, e2, -, e3, -, e4, h⟩ := C31_regressor wf hr sz hq hv hd hy junk
  refine ⟨d', m, y', φ, e1, e2, e3, fun r hr' => ?_⟩
  rw [h r hr']
  obtain ⟨i, a, hi, ha, rfl⟩ := wf.exists_segment hr'
  rw [idNoInertia_eq wf hr sz hq hv.toPosReady hd rfl] at e4
  cases e4
  have h0 : ∀ i, mb.wrenchAt mbc.q (fun k => (mb.posAt mbc.q k).dualMul (mbc.forceAt k)) i = 0 := by
    intro i
    unfold MultiBody.wrenchAt
    refine Finset.sum_eq_zero fun k _ => ?_
    have : mbc.forceAt k = 0 := by
      unfold MBC.forceAt
      cases e : mbc.force[k]? with
      | none => rfl
      | some f => exact hf f (List.mem_of_getElem? e)
    dsimp only
    rw [this, PTransform.dualMul_zero, PTransform.transMul_zero]
  have hl : ∀ x ∈ ((List.range mb.bodies.length).map fun i => mb.project i
      (mb.wrenchAt mbc.q (fun k => (mb.posAt mbc.q k).dualMul (mbc.forceAt k)) i)).flatten, x = 0 := by
    intro x hx
    simp only [List.mem_flatten, List.mem_map, h0, MultiBody.project] at hx
    obtain ⟨l, ⟨i, -, rfl⟩, hx⟩ := hx
    obtain ⟨c, -, rfl⟩ := List.mem_map.1 hx
    exact MotionVec.dot_zero c
  congr 1
  rw [sub_eq_self, List.getD_eq_getElem?_getD]
  cases e : ((List.range mb.bodies.length).map fun i => mb.project i
      (mb.wrenchAt mbc.q (fun k => (mb.posAt mbc.q k).dualMul (mbc.forceAt k)) i)).flatten[mb.dofPosAt i + a]? with
  | none => rfl
  | some x => exact hl x (List.mem_of_getElem? e)

/-- The sample robot moves and has no external forces; its regressor is `11 × 40` and has non-zero entries. -/
example : ∃ (d' : ID ℚ) (m : MBC ℚ) (y' : IDIM ℚ) (φ : List ℚ), Sample.id.inverseDynamics Sample.mb Sample.mbcV = .ok (d', m) ∧
    (IDIM.mk' Sample.mb).computeY Sample.mb m = .ok y' ∧ multiBodyToInertialVector (fun _ => 5) Sample.mb = .ok φ ∧ φ.length = 40 ∧
    ∀ r, r < 11 → m.jointTorque.flatten[r]? = some (y'.Y.mulVecAt φ r) := by
  obtain ⟨h1, h2, h3⟩ := Sample.ready
  have hf : ∀ f ∈ Sample.mbcV.force, f = 0 := by decide +kernel
  obtain ⟨d', m, y', φ, e1, e2, e3, e4⟩ := C31_regressor_free Sample.wf Sample.rigid h2 h3 h1 hf (d := Sample.id) (by decide +kernel)
    (C31_constructor Sample.mb) (fun _ => 5)
  refine ⟨d', m, y', φ, e1, e2, e3, ?_, e4⟩
  rw [multiBodyToInertialVector_eq] at e3
  cases e3
  decide +kernel

/-! ### C32 -/

/-- C32: the torques (and body accelerations) of inverse statics are those that inverse dynamics computes for the same positions,
forces and gravity when all joint velocities and accelerations are zero. Inverse statics changes nothing but torques and body
accelerations. -/
theorem C32_inverse_statics (wf : mb.WF) (hr : mb.Rigid) {mbc : MBC K} (sz : mbc.Sized mb) (hq : ValidQ mb mbc.q)
    (hp : mbc.PosReady mb) {rest : MBC K} (szr : rest.Sized mb) (hv : rest.VelReady mb) (eq : rest.q = mbc.q)
    (ef : rest.force = mbc.force) (eg : rest.gravity = mbc.gravity) (h0 : ∀ l ∈ rest.alpha, ∀ x ∈ l, x = 0)
    (h1 : ∀ l ∈ rest.alphaD, ∀ x ∈ l, x = 0) {d d₀ : ID K} (hd : d.f.length = mb.nrBodies) (hd₀ : d₀.f.length = mb.nrBodies) :
    ∃ (d' d₀' : ID K) (m m₀ : MBC K), inverseStatics d mb mbc = .ok (d', m) ∧ d₀.inverseDynamics mb rest = .ok (d₀', m₀) ∧
      m.jointTorque = m₀.jointTorque ∧ m.bodyAccB = m₀.bodyAccB ∧ d' = d₀' ∧
      { m with bodyAccB := mbc.bodyAccB, jointTorque := mbc.jointTorque } = mbc := by
  have hq' : ValidQ mb rest.q := by rw [eq]; exact hq
  have hf : rest.forceAt = mbc.forceAt := by unfold MBC.forceAt; rw [ef]
  have e1 := is_eq wf hr sz hq hp hd rfl
  have e2 := id_eq wf hr szr hq' hv hd₀ rfl
  have hnet : mb.netForceAt rest.q rest.alpha rest.alphaD ⟨0, rest.gravity⟩ rest.forceAt =
      fun k => (mb.inertiaAt k).mulMotion ((mb.posAt mbc.q k).mulMotion ⟨0, mbc.gravity⟩) -
      (mb.posAt mbc.q k).dualMul (mbc.forceAt k) := by
    funext k
    unfold MultiBody.netForceAt
    rw [mb.accAt_rest _ h0 h1, mb.velAt_rest _ h0, eq, eg, hf]
    simp
  have hacc : mb.accAt rest.q rest.alpha rest.alphaD ⟨0, rest.gravity⟩ = fun k => (mb.posAt mbc.q k).mulMotion ⟨0, mbc.gravity⟩ := by
    funext k
    rw [mb.accAt_rest _ h0 h1, eq, eg]
  rw [hnet, hacc, eq] at e2
  exact ⟨_, _, _, _, e1, e2, rfl, rfl, rfl, rfl⟩

/-- The sample robot held at rest. -/
def Sample.rest : MBC ℚ := { Sample.mbc with
  alpha := [[0, 0, 0, 0, 0, 0], [0], [0, 0, 0], [0]], alphaD := [[0, 0, 0, 0, 0, 0], [0], [0, 0, 0], [0]] }

example : ∃ (d' d₀' : ID ℚ) (m m₀ rest : MBC ℚ), inverseStatics Sample.id Sample.mb Sample.mbcV = .ok (d', m) ∧
    Sample.id.inverseDynamics Sample.mb rest = .ok (d₀', m₀) ∧ m.jointTorque = m₀.jointTorque ∧ m.jointTorque[2]? ≠ some [0, 0, 0] := by
  obtain ⟨h1, h2, h3⟩ := Sample.ready
  obtain ⟨m₁, r, e1, e2, r1, r2, r3, r4, r5, r6, r7, -⟩ := C24_velReady Sample.wf Sample.rigid (mbc := Sample.rest) { Sample.sized with
    alpha := by unfold SizedDof; decide +kernel, alphaD := by unfold SizedDof; decide +kernel } Sample.validQ
  obtain ⟨d', d₀', m, m₀, k1, k2, k3, -⟩ := C32_inverse_statics Sample.wf Sample.rigid h2 h3 h1.toPosReady r2 r1
    (by rw [r3]; decide +kernel) (by rw [r6]; decide +kernel) (by rw [r7]; decide +kernel) (by rw [r4]; decide +kernel)
    (by rw [r5]; decide +kernel) (d := Sample.id) (d₀ := Sample.id) (by decide +kernel) (by decide +kernel)
  refine ⟨d', d₀', m, m₀, r, k1, k2, k3, ?_⟩
  have : m.jointTorque = ((inverseStatics Sample.id Sample.mb Sample.mbcV).toOption.map (·.2.jointTorque)).getD [] := by rw [k1]; rfl
  rw [this]
  decide +kernel

end RBDyn
