import Verif.Lemmas.IK
import Verif.Props.Jacobian

/-! C45: inverse kinematics changes only the joints of the path and reports honestly. -/

namespace RBDyn
variable {K : Type} [Scalar K] {mb : MultiBody K}

/-- What is left to do for body `N` at the joint positions `q`: rotation error and distance to the target. -/
def MultiBody.ikResidual (mb : MultiBody K) (rotErr : Mat3 K → Mat3 K → Vec3 K) (target : PTransform K) (N : Nat) (q : List (List K)) :
    MotionVec K :=
  ⟨rotErr (mb.posAt q N).E target.E, target.r - (mb.posAt q N).r⟩

/-- One update of the configuration: along the path to body `N` the positions move by `λ` times the solution of the linear system given by
the (rounded) Jacobian at `q` and the residual at `q`; all other joints keep their positions. -/
structure IKStep (solve : List (MotionVec K) → MotionVec K → List K) (rotErr : Mat3 K → Mat3 K → Vec3 K) (ik : IK K) (mb : MultiBody K)
    (target : PTransform K) (N : Nat) (q q' : List (List K)) : Prop where
  valid : ValidQ mb q'
  frame : ∀ i, i ∉ pathUp mb.par N → q'[i]? = q[i]?
  step : ∀ (J : Jac K) (m : MBC K), J.Of mb N 0 → m.PosReady mb → m.q = q → ∃ J₁, J.jacobian mb m = .ok J₁ ∧
    pathVec J.path q' = List.zipWith (fun a b => a + ik.lambda * b) (pathVec J.path q)
      (solve (roundCols ik.almostZero J₁.jac) (mb.ikResidual rotErr target N q))

/-- No joint between the root and body `N` is parametrised by a quaternion. -/
def MultiBody.PlainPath (mb : MultiBody K) (N : Nat) : Prop :=
  ∀ i ∈ pathUp mb.par N, ∀ j, mb.joints[i]? = some j → j.type ≠ .Free ∧ j.type ≠ .Spherical

theorem Joint.Built.plain {j : Joint K} (h : j.Built) (h1 : j.type ≠ .Free) (h2 : j.type ≠ .Spherical) :
    j.params = j.dof ∧ ∀ x : List K, x.length = j.params → ValidParam j.type x := by
  obtain ⟨t, a, f, n, rfl | ⟨mn, m, o, rfl⟩⟩ := h.exists_mk <;> cases t <;>
    first
    | exact absurd rfl h1
    | exact absurd rfl h2
    | exact ⟨rfl, fun x hx => ⟨hx, trivial⟩⟩

theorem SizedQ.pathVec_length (wf : mb.WF) {q : List (List K)} (h : SizedQ mb q) {path : List Nat}
    (hp : ∀ i ∈ path, i < mb.bodies.length ∧ ∀ j, mb.joints[i]? = some j → j.params = j.dof) :
    (pathVec path q).length = (path.map mb.dofAt).sum := by
  unfold pathVec
  rw [List.length_flatMap]
  refine congrArg List.sum (List.map_congr_left fun i hi => ?_)
  obtain ⟨hi, hj⟩ := hp i hi
  obtain ⟨j, e, -⟩ := wf.joint_get hi
  have hl : i < q.length := by rw [h.length, wf.njoints]; exact hi
  have hx := List.getElem?_eq_getElem hl
  rw [hx, Option.getD_some, h.get hx e, hj j e]
  simp [MultiBody.dofAt, e]

/-- One pass through the loop. -/
theorem ik_step (wf : mb.WF) (hr : mb.Rigid) {solve : List (MotionVec K) → MotionVec K → List K}
    (hs : ∀ A v, (solve A v).length = A.length) (rotErr : Mat3 K → Mat3 K → Vec3 K) {ik : IK K} (target : PTransform K) {N : Nat}
    (hN : ik.efIndex = N) (hpl : mb.PlainPath N) {m : MBC K} (sz : m.Sized mb) (hq : ValidQ mb m.q) (hp : m.PosReady mb)
    {J : Jac K} (hJ : J.Of mb N 0) :
    ∃ J₁ m₁, J₁.Of mb N 0 ∧ m₁.Sized mb ∧ m₁.VelReady mb ∧ IKStep solve rotErr ik mb target N m.q m₁.q ∧
      (m₁.alpha = m.alpha ∧ m₁.alphaD = m.alphaD ∧ m₁.force = m.force ∧ m₁.gravity = m.gravity ∧ m₁.jointTorque = m.jointTorque) ∧
      ∀ k, ikLoop solve rotErr ik mb target (k + 1) m J =
        if normLt (mb.ikResidual rotErr target N m.q) ik.threshold then .ok (m₁, J₁, true)
        else ikLoop solve rotErr ik mb target k m₁ J₁ := by
  have e1 := hJ.jacobian_eq wf hp
  set J₁ : Jac K := { J with jac := mb.jacCols m.q (.ofTrans (PTransform.ofTrans 0 * mb.posAt m.q N).r) J.path J.sign } with hJ₁
  have hmem : ∀ i, i ∈ J.path ↔ i ∈ pathUp mb.par N := fun i => by rw [hJ.path_eq, List.mem_reverse]
  have hnd : J.path.Nodup := by rw [hJ.path_eq, List.nodup_reverse]; exact pathUp_nodup N
  have hpd : ∀ i ∈ J.path, i < mb.bodies.length ∧ ∀ j, mb.joints[i]? = some j → j.params = j.dof := fun i hi =>
    ⟨hJ.path i hi, fun j e => by
      obtain ⟨h1, h2⟩ := hpl i ((hmem i).1 hi) j e
      exact ((wf.built j (List.mem_of_getElem? e)).plain h1 h2).1⟩
  have hlen := sz.q.pathVec_length wf hpd
  have hjl : J₁.jac.length = (J.path.map mb.dofAt).sum := by
    obtain ⟨J', e, h⟩ : ∃ J', J.jacobian mb m = .ok J' ∧ J'.jac.length = (J.path.map mb.dofAt).sum :=
      ⟨J₁, e1, jacCols_length _ _ _ _⟩
    rw [e1] at e
    cases e
    exact h
  have hOf : J₁.Of mb N 0 := hJ.with_jac hjl
  set v := mb.ikResidual rotErr target N m.q with hv
  set res := solve (roundCols ik.almostZero J₁.jac) v with hres
  have hrl : res.length = (J.path.map mb.dofAt).sum := by rw [hres, hs, roundCols, List.length_map, hjl]
  obtain ⟨q', u1, u2, u3, u4⟩ := ikUpdate_spec ik.lambda res hnd (q := m.q) (d := 0)
    (fun i hi => by rw [sz.q.length, wf.njoints]; exact hJ.path i hi) (by rw [hlen, hrl, Nat.zero_add])
  have hsq : SizedQ mb q' := u2.trans sz.q
  have hvq : ValidQ mb q' := by
    refine List.forall₂_iff_get.2 ⟨hsq.length.symm, fun i h1 h2 => ?_⟩
    have ej := List.getElem?_eq_getElem h1
    have ex := List.getElem?_eq_getElem h2
    by_cases hi : i ∈ pathUp mb.par N
    · obtain ⟨t1, t2⟩ := hpl i hi _ ej
      exact ((wf.built _ (List.getElem_mem h1)).plain t1 t2).2 _ (hsq.get ex ej)
    · have h3 : i < m.q.length := by rw [sz.q.length]; exact h1
      have h4 := (List.forall₂_iff_get.1 hq).2 i h1 h3
      have : q'[i] = m.q[i] := Option.some.inj (by
        rw [← ex, u3 i (fun h => hi ((hmem i).1 h)), List.getElem?_eq_getElem h3])
      simpa only [List.get_eq_getElem, this] using h4
  obtain ⟨m₀, m₁, k1, k2, k3, k4, k5, k6⟩ := C24_velReady wf hr (mbc := { m with q := q' }) { sz with q := hsq } hvq
  refine ⟨J₁, m₁, hOf, k4, k3, ?_, k6, fun k => ?_⟩
  · rw [k5]
    refine ⟨hvq, fun i hi => u3 i (fun h => hi ((hmem i).1 h)), fun J' m' h1 h2 h3 => ⟨_, h1.jacobian_eq wf h2, ?_⟩⟩
    have hpe : J'.path = J.path := by rw [h1.path_eq, hJ.path_eq]
    have hse : J'.sign = J.sign := by rw [h1.sign_eq, hJ.sign_eq, hpe]
    rw [h3, hpe, hse, u4, List.drop_zero]
  · rw [ikLoop, e1, Res.bind_ok]
    dsimp only
    rw [hN]
    have ht : toIdx (N : Int) = .ok N := by simp [toIdx]
    rw [ht, Res.bind_ok, hp.rd_pos hJ.isBody, Res.bind_ok]
    have hvv : (⟨rotErr (mb.posAt m.q N).E target.E, target.r - (mb.posAt m.q N).r⟩ : MotionVec K) = v := rfl
    rw [hvv, ← hres]
    have hpj : J₁.path = J.path := rfl
    rw [hpj, u1, Res.bind_ok, k1, Res.bind_ok, k2, Res.bind_ok]
    rfl

/-- C45: for a body whose path has no quaternion joints, inverse kinematics goes through configurations `Q 0, …, Q n` with `n` at most
`max_iterations`: it starts with the given one and ends with the returned one, every step moves only the joints of the path and by `λ` times the
least squares solution for the residual of the configuration before the step. It stops exactly when that residual is below the threshold, and
returns true only in that case: then the residual of the last but one configuration `Q (n - 1)`, the one measured last, is below the threshold; it
returns false only after `max_iterations` steps, with no measured residual below the threshold. Velocities, accelerations, torques,
forces and gravity are left alone, and the poses and velocities of the bodies belong to the returned positions. -/
theorem C45_inverse_kinematics (wf : mb.WF) (hr : mb.Rigid) {solve : List (MotionVec K) → MotionVec K → List K}
    (hs : ∀ A v, (solve A v).length = A.length) (rotErr : Mat3 K → Mat3 K → Vec3 K) {ik : IK K} (target : PTransform K) {N : Nat}
    (hN : ik.efIndex = N) (hpl : mb.PlainPath N) {mbc : MBC K} (sz : mbc.Sized mb) (hq : ValidQ mb mbc.q) (hJ : ik.jac.Of mb N 0) :
    ∃ (n : Nat) (Q : Nat → List (List K)) (m : MBC K) (J : Jac K) (b : Bool),
      inverseKinematics solve rotErr ik mb mbc target = .ok (m, J, b) ∧
      n ≤ ik.maxIterations.toNat ∧ Q 0 = mbc.q ∧ m.q = Q n ∧
      (∀ x < n, IKStep solve rotErr ik mb target N (Q x) (Q (x + 1))) ∧
      (∀ x, x + 1 < n → ¬ normLt (mb.ikResidual rotErr target N (Q x)) ik.threshold) ∧
      (b = true → 0 < n ∧ normLt (mb.ikResidual rotErr target N (Q (n - 1))) ik.threshold) ∧
      (b = false → n = ik.maxIterations.toNat ∧ ∀ x < n, ¬ normLt (mb.ikResidual rotErr target N (Q x)) ik.threshold) ∧
      (∀ i, i ∉ pathUp mb.par N → m.q[i]? = mbc.q[i]?) ∧
      (m.alpha = mbc.alpha ∧ m.alphaD = mbc.alphaD ∧ m.force = mbc.force ∧ m.gravity = mbc.gravity ∧ m.jointTorque = mbc.jointTorque) ∧
      m.PosReady mb ∧ (0 < n → m.VelReady mb) ∧ m.Sized mb ∧ J.Of mb N 0 := by
  have key : ∀ (k : Nat) (m₀ : MBC K) (J₀ : Jac K), m₀.Sized mb → ValidQ mb m₀.q → m₀.PosReady mb → J₀.Of mb N 0 →
      ∃ (n : Nat) (Q : Nat → List (List K)) (m : MBC K) (J : Jac K) (b : Bool),
        ikLoop solve rotErr ik mb target k m₀ J₀ = .ok (m, J, b) ∧
        n ≤ k ∧ Q 0 = m₀.q ∧ m.q = Q n ∧
        (∀ x < n, IKStep solve rotErr ik mb target N (Q x) (Q (x + 1))) ∧
        (∀ x, x + 1 < n → ¬ normLt (mb.ikResidual rotErr target N (Q x)) ik.threshold) ∧
        (b = true → 0 < n ∧ normLt (mb.ikResidual rotErr target N (Q (n - 1))) ik.threshold) ∧
        (b = false → n = k ∧ ∀ x < n, ¬ normLt (mb.ikResidual rotErr target N (Q x)) ik.threshold) ∧
        (∀ i, i ∉ pathUp mb.par N → m.q[i]? = m₀.q[i]?) ∧
        (m.alpha = m₀.alpha ∧ m.alphaD = m₀.alphaD ∧ m.force = m₀.force ∧ m.gravity = m₀.gravity ∧ m.jointTorque = m₀.jointTorque) ∧
        m.PosReady mb ∧ (0 < n → m.VelReady mb) ∧ m.Sized mb ∧ J.Of mb N 0 := by
    intro k
    induction k with
    | zero =>
      intro m₀ J₀ s0 v0 p0 o0
      exact ⟨0, fun _ => m₀.q, m₀, J₀, false, rfl, le_refl _, rfl, rfl, by simp, by simp, by simp, by simp, fun _ _ => rfl,
        ⟨rfl, rfl, rfl, rfl, rfl⟩, p0, by simp, s0, o0⟩
    | succ k ih =>
      intro m₀ J₀ s0 v0 p0 o0
      obtain ⟨J₁, m₁, o1, s1, r1, st, ⟨f1, f2, f3, f4, f5⟩, e⟩ := ik_step wf hr hs rotErr target hN hpl s0 v0 p0 o0
      rw [e k]
      by_cases hc : normLt (mb.ikResidual rotErr target N m₀.q) ik.threshold
      · rw [if_pos hc]
        refine ⟨1, fun x => if x = 0 then m₀.q else m₁.q, m₁, J₁, true, rfl, by omega, rfl, rfl, ?_, by simp, ?_, by simp, st.frame,
          ⟨f1, f2, f3, f4, f5⟩, r1.toPosReady, fun _ => r1, s1, o1⟩
        · intro x hx
          obtain rfl : x = 0 := by omega
          exact st
        · exact fun _ => ⟨Nat.one_pos, hc⟩
      · rw [if_neg hc]
        obtain ⟨n, Q, m, J, b, h1, h2, h3, h4, h5, h6, h7, h8, h9, ⟨g1, g2, g3, g4, g5⟩, h10, h11, h12, h13⟩ :=
          ih m₁ J₁ s1 st.valid r1.toPosReady o1
        refine ⟨n + 1, fun x => if x = 0 then m₀.q else Q (x - 1), m, J, b, h1, by omega, rfl, ?_, ?_, ?_, ?_, ?_, ?_,
          ⟨g1.trans f1, g2.trans f2, g3.trans f3, g4.trans f4, g5.trans f5⟩, h10, ?_, h12, h13⟩
        · simpa using h4
        · intro x hx
          rcases Nat.eq_zero_or_pos x with rfl | hx0
          · simpa [h3] using st
          · obtain ⟨y, rfl⟩ : ∃ y, x = y + 1 := ⟨x - 1, by omega⟩
            simpa using h5 y (by omega)
        · intro x hx
          rcases Nat.eq_zero_or_pos x with rfl | hx0
          · simpa using hc
          · obtain ⟨y, rfl⟩ : ∃ y, x = y + 1 := ⟨x - 1, by omega⟩
            simpa using h6 y (by omega)
        · intro hb
          obtain ⟨hn, hl⟩ := h7 hb
          refine ⟨by omega, ?_⟩
          have : n ≠ 0 := by omega
          simpa [this] using hl
        · intro hb
          obtain ⟨hn, hl⟩ := h8 hb
          refine ⟨by omega, fun x hx => ?_⟩
          rcases Nat.eq_zero_or_pos x with rfl | hx0
          · simpa using hc
          · obtain ⟨y, rfl⟩ : ∃ y, x = y + 1 := ⟨x - 1, by omega⟩
            simpa using hl y (by omega)
        · exact fun i hi => (h9 i hi).trans (st.frame i hi)
        · intro _
          rcases Nat.eq_zero_or_pos n with rfl | hn
          · have e0 : ikLoop solve rotErr ik mb target k m₁ J₁ = .ok (m, J, b) := h1
            rcases k with - | k
            · rw [ikLoop] at e0
              cases e0
              exact r1
            · exfalso
              cases b with
              | true => exact absurd (h7 rfl).1 (by omega)
              | false => exact absurd (h8 rfl).1 (by omega)
          · exact h11 hn
  obtain ⟨m₀, e0, p0, s0, q0, a0, ad0, fo0, gr0, jt0⟩ := C23_posReady wf sz
  obtain ⟨n, Q, m, J, b, h1, h2, h3, h4, h5, h6, h7, h8, h9, ⟨g1, g2, g3, g4, g5⟩, h10, h11, h12, h13⟩ :=
    key ik.maxIterations.toNat m₀ ik.jac s0 (q0 ▸ hq) p0 hJ
  refine ⟨n, Q, m, J, b, ?_, h2, h3.trans q0, h4, h5, h6, h7, h8, fun i hi => (h9 i hi).trans (by rw [q0]),
    ⟨g1.trans a0, g2.trans ad0, g3.trans fo0, g4.trans gr0, g5.trans jt0⟩, h10, h11, h12, h13⟩
  rw [inverseKinematics, e0, Res.bind_ok, h1]

/-- C45, the constructor: 50 iterations, learning rate 0.9, both thresholds 1e-8, and a Jacobian object for the end effector, so that
`C45_inverse_kinematics` applies. -/
theorem C45_constructor (wf : mb.WF) (junk : Nat → MotionVec K) {N : Nat} {b : Body K} (hb : mb.bodies[N]? = some b)
    (hn : mb.sBodyIndexByName b.name = .ok (N : Int)) :
    ∃ ik, IK.mk' junk mb N = .ok ik ∧ ik.jac.Of mb N 0 ∧ ik.efIndex = N ∧ ik.maxIterations = 50 ∧ ik.lambda = 9 / 10 ∧
      ik.threshold = 1 / 10 ^ 8 ∧ ik.almostZero = 1 / 10 ^ 8 := by
  obtain ⟨J, e, h⟩ := Jac.mk'_of wf junk hn (List.getElem?_eq_some_iff.1 hb).1 0
  refine ⟨⟨50, 9 / 10, 1 / 10 ^ 8, 1 / 10 ^ 8, N, J⟩, ?_, h, rfl, rfl, rfl, rfl, rfl⟩
  unfold IK.mk' MultiBody.body rdI
  rw [if_neg (by omega), Int.toNat_natCast, rd_of_getElem? hb, Res.bind_ok, e, Res.bind_ok]
  rfl

namespace Sample

def ikJoints : List (Joint ℚ) :=
  [Joint.mk' .Rev ⟨0, 0, 1⟩ true "a", Joint.mk' .Prism ⟨1, 0, 0⟩ false "b", Joint.mk' .Prism ⟨0, 1, 0⟩ true "c"]

def ikBodies : List (Body ℚ) :=
  [⟨⟨2, 0, ⟨1, 0, 1, 0, 0, 1⟩⟩, "x"⟩, ⟨⟨2, 0, ⟨1, 0, 1, 0, 0, 1⟩⟩, "y"⟩, ⟨⟨2, 0, ⟨1, 0, 1, 0, 0, 1⟩⟩, "z"⟩]

/-- A revolute joint carrying two sliding ones. -/
def ikMb : MultiBody ℚ :=
  ((MultiBody.mk' ikBodies ikJoints [-1, 0, 0] [0, 1, 2] [-1, 0, 0] [1, ⟨1, ⟨1, 0, 0⟩⟩, 1]).toOption).getD
    ⟨[], [], [], [], [], [], [], [], [], [], 0, 0⟩

def ikMbc : MBC ℚ :=
  { q := [[0], [2], [3]], alpha := [[1], [0], [0]], alphaD := [[0], [0], [0]], force := [0, 0, 0], jointConfig := [1, 1, 1],
    jointVelocity := [0, 0, 0], jointTorque := [[0], [0], [0]], motionSubspace := [[0], [0], [0]], bodyPosW := [1, 1, 1],
    parentToSon := [1, 1, 1], bodyVelW := [0, 0, 0], bodyVelB := [0, 0, 0], bodyAccB := [0, 0, 0], gravity := 0 }

theorem ik_mk : MultiBody.mk' ikBodies ikJoints [-1, 0, 0] [0, 1, 2] [-1, 0, 0] [1, ⟨1, ⟨1, 0, 0⟩⟩, 1] = .ok ikMb := by decide +kernel

theorem ik_units : ∀ j ∈ ikJoints, j.BuiltUnit := by
  intro j hj
  simp only [ikJoints, List.mem_cons, List.not_mem_nil, or_false] at hj
  rcases hj with rfl | rfl | rfl
  · exact .mk _ _ _ _ (by simp [ValidAxis, IsUnit3])
  · exact .mk _ _ _ _ trivial
  · exact .mk _ _ _ _ trivial

theorem ik_wf : ikMb.WF := by
  obtain ⟨mb', h, hw, -⟩ := MultiBody.mk'_wf ikBodies ikJoints [-1, 0, 0] [0, 1, 2] [-1, 0, 0] [1, ⟨1, ⟨1, 0, 0⟩⟩, 1] rfl rfl rfl
    (by intro i hi
        have : i < 3 := hi
        obtain rfl | rfl | rfl : i = 0 ∨ i = 1 ∨ i = 2 := by omega
        all_goals rfl)
    (by intro i p hp
        obtain ⟨hi, -⟩ := List.getElem?_eq_some_iff.1 hp
        have : i < 3 := hi
        obtain rfl | rfl | rfl : i = 0 ∨ i = 1 ∨ i = 2 := by omega
        all_goals (cases hp; decide))
    rfl (fun j hj => (ik_units j hj).built)
  rw [ik_mk] at h
  cases h
  exact hw

theorem ik_rigid : ikMb.Rigid := by
  have hj : ikMb.joints = ikJoints := by decide +kernel
  have hX : ikMb.Xt = [1, ⟨1, ⟨1, 0, 0⟩⟩, 1] := by decide +kernel
  constructor
  · rw [hj]; exact ik_units
  · rw [hX]
    intro X hX
    simp only [List.mem_cons, List.not_mem_nil, or_false] at hX
    rcases hX with rfl | rfl | rfl <;> exact ⟨by decide +kernel, by decide +kernel⟩

end Sample

/-- The hypotheses of `C45_inverse_kinematics` are met by a concrete robot, for every solver of the right size. -/
example : Sample.ikMb.WF ∧ Sample.ikMb.Rigid ∧ Sample.ikMb.PlainPath 1 ∧ Sample.ikMbc.Sized Sample.ikMb ∧
    ValidQ Sample.ikMb Sample.ikMbc.q ∧ pathUp Sample.ikMb.par 1 = [1, 0] ∧
    ∃ ik, IK.mk' (fun _ => 0) Sample.ikMb 1 = .ok ik ∧ ik.jac.Of Sample.ikMb 1 0 ∧ ik.efIndex = (1 : Nat) := by
  have hj : Sample.ikMb.joints = Sample.ikJoints := by decide +kernel
  refine ⟨Sample.ik_wf, Sample.ik_rigid, ?_, ?_, ?_, ?_, ?_⟩
  · intro i _ j e
    rw [hj] at e
    have hm := List.mem_of_getElem? e
    simp only [Sample.ikJoints, List.mem_cons, List.not_mem_nil, or_false] at hm
    rcases hm with rfl | rfl | rfl <;> exact ⟨by decide, by decide⟩
  · constructor <;> first | decide +kernel | (show List.map List.length _ = _; decide +kernel)
  · unfold ValidQ
    rw [hj]
    exact .cons ⟨rfl, trivial⟩ (.cons ⟨rfl, trivial⟩ (.cons ⟨rfl, trivial⟩ .nil))
  · decide +kernel
  · obtain ⟨ik, h1, h2, h3, -⟩ := C45_constructor Sample.ik_wf (fun _ => 0) (N := 1)
      (b := ⟨⟨2, 0, ⟨1, 0, 1, 0, 0, 1⟩⟩, "y"⟩) (by decide +kernel) (by decide +kernel)
    exact ⟨ik, h1, h2, h3⟩

/-- C45 needs the restriction on the path: the code steps through one entry of the solution per *parameter* of a joint, so a free-flying base
makes it read past the end of the solution (which has one entry per degree of freedom). -/
theorem C45_quaternion_counterexample : ∃ ik : IK ℚ, IK.mk' (fun _ => 0) Sample.mb 0 = .ok ik ∧
    inverseKinematics (fun A _ => A.map fun _ => 0) (fun _ _ => 0) ik Sample.mb Sample.mbc 1 = .error .ub := by
  refine ⟨⟨50, 9 / 10, 1 / 10 ^ 8, 1 / 10 ^ 8, 0,
    ((Jac.mk' (fun _ => 0) Sample.mb "base" (0 : Vec3 ℚ)).toOption).getD ⟨[], [], 1, [], [], 0, 0⟩⟩, ?_, ?_⟩
  · have h : (Jac.mk' (fun _ => 0) Sample.mb "base" (0 : Vec3 ℚ)) =
        .ok (((Jac.mk' (fun _ => 0) Sample.mb "base" (0 : Vec3 ℚ)).toOption).getD ⟨[], [], 1, [], [], 0, 0⟩) := by decide +kernel
    have hb : Sample.mb.body 0 = .ok ⟨⟨4, ⟨1, 0, 2⟩, ⟨5, 0, 6, 0, 0, 7⟩⟩, "base"⟩ := by decide +kernel
    unfold IK.mk'
    rw [hb, Res.bind_ok, h, Res.bind_ok]
    rfl
  · have e : (match inverseKinematics (fun A _ => A.map fun _ => 0) (fun _ _ => 0) (⟨50, 9 / 10, 1 / 10 ^ 8, 1 / 10 ^ 8, 0,
      ((Jac.mk' (fun _ => 0) Sample.mb "base" (0 : Vec3 ℚ)).toOption).getD ⟨[], [], 1, [], [], 0, 0⟩⟩ : IK ℚ) Sample.mb Sample.mbc 1 with
      | .error e => decide (e = .ub)
      | .ok _ => false) = true := by decide +kernel
    split at e
    · rename_i h
      rw [h, of_decide_eq_true e]
    · cases e

end RBDyn
