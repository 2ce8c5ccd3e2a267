import Verif.Props.Integration
import Verif.Props.Energy
import Verif.Props.LeastConstraint

/-! A simulator made of the calls `forwardKinematics`, `forwardVelocity`, `ForwardDynamics::forwardDynamics` and `integration`, run for any
number of periods. -/

namespace RBDyn
open scoped Mat3

/-- One period of a simulator: forward kinematics and velocity, then the external forces `ext` and the torques `ctrl` are set, then forward
dynamics and numerical integration. RBDyn has no such function: this is a program that calls RBDyn (FK.cpp:17-38, FV.cpp:17-40, FD.cpp:32-42,
NumericalIntegration.cpp:358-371) as a simulator does. The forces and the controller may depend on the number `k` of the period and on the state. -/
noncomputable def period (fuel : Nat) (mb : MultiBody ℝ) (solve : DMat ℝ → List ℝ → List ℝ) (ext : Nat → MBC ℝ → List (ForceVec ℝ))
    (ctrl : Nat → MBC ℝ → Res (List (List ℝ))) (step prec : ℝ) (s : FD ℝ × MBC ℝ) (k : Nat) : Res (FD ℝ × MBC ℝ) := do
  let m₁ ← forwardKinematics mb s.2
  let m₂ ← forwardVelocity mb m₁
  let m : MBC ℝ := { m₂ with force := ext k m₂ }
  let τ ← ctrl k m
  let r ← s.1.forwardDynamics solve mb { m with jointTorque := τ }
  let m' ← integration fuel mb r.2 step prec
  return (r.1, m')

/-- `n` periods of the simulator. -/
noncomputable def simulate (fuel : Nat) (mb : MultiBody ℝ) (solve : DMat ℝ → List ℝ → List ℝ) (ext : Nat → MBC ℝ → List (ForceVec ℝ))
    (ctrl : Nat → MBC ℝ → Res (List (List ℝ))) (step prec : ℝ) (n : Nat) (s : FD ℝ × MBC ℝ) : Res (FD ℝ × MBC ℝ) :=
  (List.range n).foldlM (period fuel mb solve ext ctrl step prec) s

/-- The linear solver finds the exact solution of every symmetric positive definite system with `n` unknowns. -/
def SolvesPositive (solve : DMat ℝ → List ℝ → List ℝ) (n : Nat) : Prop :=
  ∀ H : DMat ℝ, H.rows = n → H.cols = n → (∀ r c, r < n → c < n → H.get r c = H.get c r) →
    (∀ x : List ℝ, x.length = n → (∃ y ∈ x, y ≠ 0) → 0 < ∑ r ∈ Finset.range n, x.getD r 0 * H.mulVecAt x r) → ExactSolve solve H

/-- There are such solvers. -/
theorem SolvesPositive.exists (n : Nat) : ∃ solve, SolvesPositive solve n := by
  obtain ⟨solve, hs⟩ := ExactSolve.exists_of_regular (K := ℝ) n
  refine ⟨solve, fun H hr hc _ h => hs H hr hc fun x hx hne => ?_⟩
  by_contra hcon
  push Not at hcon
  have := h x hx hne
  rw [Finset.sum_eq_zero fun r hr => by rw [hcon r (Finset.mem_range.1 hr), mul_zero]] at this
  exact lt_irrefl _ this

/-- A robot made of massive bodies and joints of the constructor, a linear solver, a period that is not negative and a positive precision. -/
structure Plant (mb : MultiBody ℝ) (solve : DMat ℝ → List ℝ → List ℝ) (step prec : ℝ) : Prop where
  wf : mb.WF
  rigid : mb.Rigid
  inertia : ∀ b ∈ mb.bodies, ∀ v : MotionVec ℝ, v ≠ 0 → 0 < v.dot (b.inertia.mulMotion v)
  subspace : ∀ j ∈ mb.joints, ∀ c ∈ j.S, c ≠ 0
  solves : SolvesPositive solve mb.nrDof
  step : 0 ≤ step
  prec : 0 < prec

/-- What the simulator needs and keeps: the buffers of the `ForwardDynamics` object and of the configuration have the sizes of the robot, and
the joint positions are valid (unit quaternions). Nothing is assumed about poses, velocities and the other results of the last call. -/
structure SimState (mb : MultiBody ℝ) (s : FD ℝ × MBC ℝ) : Prop where
  fits : s.1.Fits mb
  sized : s.2.Sized mb
  valid : ValidQ mb s.2.q

/-- The controller answers every proper state with torques of the right sizes. -/
def Answers (mb : MultiBody ℝ) (ctrl : Nat → MBC ℝ → Res (List (List ℝ))) : Prop :=
  ∀ k (m : MBC ℝ), m.Sized mb → ValidQ mb m.q → m.VelReady mb → ∃ τ, ctrl k m = .ok τ ∧ SizedDof mb τ

/-- The environment gives one force per body. -/
def OnePerBody (mb : MultiBody ℝ) (ext : Nat → MBC ℝ → List (ForceVec ℝ)) : Prop := ∀ k m, (ext k m).length = mb.bodies.length

variable {mb : MultiBody ℝ} {solve : DMat ℝ → List ℝ → List ℝ} {step prec : ℝ} {ext : Nat → MBC ℝ → List (ForceVec ℝ)}
  {ctrl : Nat → MBC ℝ → Res (List (List ℝ))}

theorem Plant.exact (P : Plant mb solve step prec) {fd : FD ℝ} (hf : fd.Fits mb) {m : MBC ℝ} (hq : ValidQ mb m.q) (hv : m.PosReady mb) :
    ∀ fd₁, fd.computeH mb m = .ok fd₁ → ExactSolve solve fd₁.H := by
  intro fd₁ e
  obtain ⟨d', e', h⟩ := C29_positive_definite P.wf P.rigid hq hv hf P.inertia P.subspace
  obtain ⟨d'', e'', hr, hc, hs, -⟩ := C28_symmetric P.wf P.rigid hq hv hf
  rw [e] at e' e''
  cases e'
  cases e''
  exact P.solves _ hr hc hs h

/-- What happens in one period. -/
structure PeriodOf (mb : MultiBody ℝ) (solve : DMat ℝ → List ℝ → List ℝ) (ext : Nat → MBC ℝ → List (ForceVec ℝ))
    (ctrl : Nat → MBC ℝ → Res (List (List ℝ))) (step prec : ℝ) (s : FD ℝ × MBC ℝ) (k : Nat) (m : MBC ℝ) (τ r : List (List ℝ)) (N : Nat)
    (s' : FD ℝ × MBC ℝ) : Prop where
  sized : m.Sized mb
  valid : ValidQ mb m.q
  ready : m.VelReady mb
  q : m.q = s.2.q
  alpha : m.alpha = s.2.alpha
  gravity : m.gravity = s.2.gravity
  measured : ∃ m₁ m₂ : MBC ℝ, forwardKinematics mb s.2 = .ok m₁ ∧ forwardVelocity mb m₁ = .ok m₂ ∧ m = { m₂ with force := ext k m₂ }
  torque : ctrl k m = .ok τ
  sizedTorque : SizedDof mb τ
  acc : s.1.forwardDynamics solve mb { m with jointTorque := τ } = .ok (s'.1, { m with jointTorque := τ, alphaD := r })
  sizedAcc : SizedDof mb r
  run : ∀ fuel, N ≤ fuel → period fuel mb solve ext ctrl step prec s k = .ok s'
  keeps : SimState mb s'
  rest : s'.2 = { m with jointTorque := τ, alphaD := r, q := s'.2.q, alpha := s'.2.alpha }
  moved : ∀ (i : Nat) (j : Joint ℝ) (x a b : List ℝ), mb.joints[i]? = some j → s.2.q[i]? = some x → s.2.alpha[i]? = some a → r[i]? = some b →
    s'.2.alpha[i]? = some (List.zipWith (fun u v => u + v * step) a b) ∧
    ∃ y, s'.2.q[i]? = some y ∧ ∀ fuel, N ≤ fuel → jointIntegration fuel j.type a b step x prec = .ok y

theorem period_of (P : Plant mb solve step prec) (hc : Answers mb ctrl) (he : OnePerBody mb ext) {s : FD ℝ × MBC ℝ} (S : SimState mb s) (k : Nat) :
    ∃ m τ r N s', PeriodOf mb solve ext ctrl step prec s k m τ r N s' := by
  obtain ⟨m₁, m₂, k1, k2, hv, sz, kq, ka, -, -, kg, -⟩ := C24_velReady P.wf P.rigid S.sized S.valid
  have szm : MBC.Sized mb { m₂ with force := ext k m₂ } := { sz with force := he k m₂ }
  have hqm : ValidQ mb m₂.q := kq ▸ S.valid
  have hvm : MBC.VelReady mb { m₂ with force := ext k m₂ } := ⟨⟨hv.parentToSon, hv.bodyPosW, hv.motionSubspace⟩, hv.jointVelocity, hv.bodyVelB, hv.bodyVelW⟩
  obtain ⟨τ, ht, hts⟩ := hc k { m₂ with force := ext k m₂ } szm hqm hvm
  have szt : MBC.Sized mb { m₂ with force := ext k m₂, jointTorque := τ } := { szm with jointTorque := hts }
  have hvt : MBC.VelReady mb { m₂ with force := ext k m₂, jointTorque := τ } :=
    ⟨⟨hv.parentToSon, hv.bodyPosW, hv.motionSubspace⟩, hv.jointVelocity, hv.bodyVelB, hv.bodyVelW⟩
  obtain ⟨-, -, r, -, -, -, hsr, ⟨fd', e3, f3⟩, -⟩ := forwardDynamics_eq P.wf P.rigid szt hqm hvt S.fits (P.exact S.fits hqm hvt.toPosReady)
  obtain ⟨N, m', hN, hm', hq', ha', hval, hmove⟩ := C41_integration (mbc := { m₂ with force := ext k m₂, jointTorque := τ, alphaD := r })
    (fun j hj => (P.rigid.1 j hj).built) szt.q szt.alpha hsr P.prec (.inl P.step)
  refine ⟨{ m₂ with force := ext k m₂ }, τ, r, N, (fd', m'), szm, hqm, hvm, kq, ka, kg, ⟨m₁, m₂, k1, k2, rfl⟩, ht, hts, e3, hsr,
    fun fuel hf => ?_, ⟨f3, ?_, hval hqm⟩, hm', fun i j x a b hj hx hal hb => ?_⟩
  · unfold period
    rw [k1, Res.bind_ok, k2, Res.bind_ok]
    dsimp only
    rw [ht, Res.bind_ok, e3, Res.bind_ok, hN fuel hf]
    rfl
  · rw [hm']
    exact { szt with alphaD := hsr, q := hq', alpha := ha' }
  · rw [← kq] at hx
    rw [← ka] at hal
    exact hmove i j x a b hj hx hal hb

theorem simulate_succ (fuel n : Nat) (s : FD ℝ × MBC ℝ) : simulate fuel mb solve ext ctrl step prec (n + 1) s =
    (simulate fuel mb solve ext ctrl step prec n s >>= fun t => period fuel mb solve ext ctrl step prec t n) := by
  unfold simulate
  rw [List.range_succ, List.foldlM_append]
  congr 1
  funext t
  rw [List.foldlM_cons]
  cases period fuel mb solve ext ctrl step prec t n <;> rfl

/-- A run of the simulator: the states after `0, 1, 2, …` periods, with the state `m n` measured, the torques `τ n` applied and the accelerations
`r n` found in period `n`. -/
structure Run (mb : MultiBody ℝ) (solve : DMat ℝ → List ℝ → List ℝ) (ext : Nat → MBC ℝ → List (ForceVec ℝ))
    (ctrl : Nat → MBC ℝ → Res (List (List ℝ))) (step prec : ℝ) (s₀ : FD ℝ × MBC ℝ) (s : Nat → FD ℝ × MBC ℝ) (m : Nat → MBC ℝ)
    (τ r : Nat → List (List ℝ)) : Prop where
  start : s 0 = s₀
  runs : ∀ n, ∃ N, ∀ fuel, N ≤ fuel → simulate fuel mb solve ext ctrl step prec n s₀ = .ok (s n)
  state : ∀ n, SimState mb (s n)
  period : ∀ n, ∃ N, PeriodOf mb solve ext ctrl step prec (s n) n (m n) (τ n) (r n) N (s (n + 1))

theorem run_exists (P : Plant mb solve step prec) (hc : Answers mb ctrl) (he : OnePerBody mb ext) {s₀ : FD ℝ × MBC ℝ} (S : SimState mb s₀) :
    ∃ s m τ r, Run mb solve ext ctrl step prec s₀ s m τ r := by
  have key : ∀ (t : { t : FD ℝ × MBC ℝ // SimState mb t }) (k : Nat), ∃ w : MBC ℝ × List (List ℝ) × List (List ℝ) × Nat × FD ℝ × MBC ℝ,
      PeriodOf mb solve ext ctrl step prec t.1 k w.1 w.2.1 w.2.2.1 w.2.2.2.1 w.2.2.2.2 := fun t k => by
    obtain ⟨m, τ, r, N, s', h⟩ := period_of P hc he t.2 k
    exact ⟨⟨m, τ, r, N, s'⟩, h⟩
  choose w hw using key
  let s : Nat → { t : FD ℝ × MBC ℝ // SimState mb t } := fun n => Nat.rec ⟨s₀, S⟩ (fun k t => ⟨(w t k).2.2.2.2, (hw t k).keeps⟩) n
  refine ⟨fun n => (s n).1, fun n => (w (s n) n).1, fun n => (w (s n) n).2.1, fun n => (w (s n) n).2.2.1, rfl, fun n => ?_, fun n => (s n).2,
    fun n => ⟨_, hw (s n) n⟩⟩
  induction n with
  | zero => exact ⟨0, fun fuel _ => rfl⟩
  | succ n ih =>
    obtain ⟨N, hN⟩ := ih
    refine ⟨max N (w (s n) n).2.2.2.1, fun fuel hf => ?_⟩
    rw [simulate_succ, hN fuel (le_trans (le_max_left _ _) hf), Res.bind_ok]
    exact (hw (s n) n).run fuel (le_trans (le_max_right _ _) hf)

/-! ### The simulator never fails -/

/-- C87: from every state whose buffers have the sizes of the robot and whose joint positions are valid, with every controller that answers with
torques of the right sizes and every external forces, any number of periods is computed without error, undefined behaviour or endless recursion,
and leaves such a state again. -/
theorem C87_never_fails (P : Plant mb solve step prec) (hc : Answers mb ctrl) (he : OnePerBody mb ext) {s₀ : FD ℝ × MBC ℝ} (S : SimState mb s₀)
    (n : Nat) : ∃ N s', (∀ fuel, N ≤ fuel → simulate fuel mb solve ext ctrl step prec n s₀ = .ok s') ∧ s'.1.Fits mb ∧ s'.2.Sized mb ∧
      ValidQ mb s'.2.q ∧ s'.2.gravity = s₀.2.gravity := by
  obtain ⟨s, m, τ, r, R⟩ := run_exists P hc he S
  obtain ⟨N, hN⟩ := R.runs n
  refine ⟨N, s n, hN, (R.state n).fits, (R.state n).sized, (R.state n).valid, ?_⟩
  induction n generalizing N with
  | zero => rw [R.start]
  | succ n ih =>
    obtain ⟨N', hN'⟩ := R.runs n
    obtain ⟨_, h⟩ := R.period n
    rw [h.rest, ← ih N' hN']
    exact h.gravity

/-- C87: the poses and velocities that a period leaves behind are those of its beginning: they do not belong to the new joint positions before the
next call of forward kinematics. -/
theorem C87_stale (P : Plant mb solve step prec) (hc : Answers mb ctrl) (he : OnePerBody mb ext) {s₀ : FD ℝ × MBC ℝ} (S : SimState mb s₀) (k : Nat) :
    ∃ N s' m₁ m₂, (∀ fuel, N ≤ fuel → period fuel mb solve ext ctrl step prec s₀ k = .ok s') ∧ forwardKinematics mb s₀.2 = .ok m₁ ∧
      forwardVelocity mb m₁ = .ok m₂ ∧ s'.2.bodyPosW = m₂.bodyPosW ∧ s'.2.bodyVelB = m₂.bodyVelB := by
  obtain ⟨m, τ, r, N, s', h⟩ := period_of P hc he S k
  obtain ⟨m₁, m₂, k1, k2, hm⟩ := h.measured
  refine ⟨N, s', m₁, m₂, h.run, k1, k2, ?_, ?_⟩
  · rw [h.rest, hm]
  · rw [h.rest, hm]

/-! ### Held in place -/

/-- The controller that applies the torques of inverse statics. -/
noncomputable def holding (d : ID ℝ) (mb : MultiBody ℝ) (_ : Nat) (m : MBC ℝ) : Res (List (List ℝ)) := do
  let r ← inverseStatics d mb m
  return r.2.jointTorque

theorem holding_answers (wf : mb.WF) (hr : mb.Rigid) {d : ID ℝ} (hd : d.f.length = mb.nrBodies) : Answers mb (holding d mb) := by
  intro k m sz hq hv
  refine ⟨_, by unfold holding; rw [is_eq wf hr sz hq hv.toPosReady hd rfl, Res.bind_ok]; rfl, ?_⟩
  unfold SizedDof
  refine List.ext_getElem (by simp [wf.njoints]) fun i h1 h2 => ?_
  have hi : i < mb.joints.length := by simpa using h2
  have := wf.SAt_length (i := i) (by rw [← wf.njoints]; exact hi)
  simp only [List.getElem_map, List.getElem_range, MultiBody.project, List.length_map, this]
  simp [MultiBody.dofAt, hi]

/-- In a period that begins at rest and finds no acceleration nothing moves. -/
theorem PeriodOf.still (hu : ∀ j ∈ mb.joints, j.Built) (hp : prec ≠ 0) {s s' : FD ℝ × MBC ℝ} {k N : Nat} {m : MBC ℝ} {τ r : List (List ℝ)}
    (h : PeriodOf mb solve ext ctrl step prec s k m τ r N s') (S : SimState mb s) (ha : ∀ l ∈ s.2.alpha, ∀ x ∈ l, x = 0) (hr : ∀ l ∈ r, ∀ x ∈ l, x = 0) :
    s'.2.q = s.2.q ∧ s'.2.alpha = s.2.alpha := by
  have l1 := S.sized.q.length
  have l2 := S.sized.alpha.length
  have l3 := h.sizedAcc.length
  have l4 := h.keeps.sized.q.length
  have l5 := h.keeps.sized.alpha.length
  have key : ∀ i, i < mb.joints.length → s'.2.q[i]? = s.2.q[i]? ∧ s'.2.alpha[i]? = s.2.alpha[i]? := by
    intro i hi
    have hj := List.getElem?_eq_getElem hi
    have hx := List.getElem?_eq_getElem (l := s.2.q) (i := i) (by omega)
    have hal := List.getElem?_eq_getElem (l := s.2.alpha) (i := i) (by omega)
    have hb := List.getElem?_eq_getElem (l := r) (i := i) (by omega)
    have hsz := (hu _ (List.getElem_mem hi)).sizes
    have e1 : s.2.alpha[i]'(by omega) = List.replicate (Joint.nDof mb.joints[i].type) 0 := by
      rw [List.eq_replicate_iff]
      exact ⟨(S.sized.alpha.get hal hj).trans hsz.2, ha _ (List.getElem_mem _)⟩
    have e2 : r[i]'(by omega) = List.replicate (Joint.nDof mb.joints[i].type) 0 := by
      rw [List.eq_replicate_iff]
      exact ⟨(h.sizedAcc.get hb hj).trans hsz.2, hr _ (List.getElem_mem _)⟩
    rw [e1] at hal
    rw [e2] at hb
    obtain ⟨h1, y, hy, hrun⟩ := h.moved i _ _ _ _ hj hx hal hb
    have hval : ValidParam mb.joints[i].type (s.2.q[i]'(by omega)) := (List.forall₂_iff_get.1 S.valid).2 i hi (by omega)
    have := hrun (N + 1) (by omega)
    rw [C41_rest N _ hval step hp] at this
    refine ⟨by rw [hy, hx, ← Except.ok.inj this], ?_⟩
    rw [h1, hal]
    simp
  refine ⟨List.ext_getElem? fun i => ?_, List.ext_getElem? fun i => ?_⟩
  · by_cases hi : i < mb.joints.length
    · exact (key i hi).1
    · rw [List.getElem?_eq_none (by omega), List.getElem?_eq_none (by omega)]
  · by_cases hi : i < mb.joints.length
    · exact (key i hi).2
    · rw [List.getElem?_eq_none (by omega), List.getElem?_eq_none (by omega)]

/-- C87: a robot at rest on which the torques of inverse statics act does not move in the simulation, whatever the forces are and however
they change, for any number of periods. -/
theorem C87_held (P : Plant mb solve step prec) (he : OnePerBody mb ext) {s₀ : FD ℝ × MBC ℝ} (S : SimState mb s₀) {d : ID ℝ}
    (hd : d.f.length = mb.nrBodies) (hrest : ∀ l ∈ s₀.2.alpha, ∀ x ∈ l, x = 0) (n : Nat) :
    ∃ N s', (∀ fuel, N ≤ fuel → simulate fuel mb solve ext (holding d mb) step prec n s₀ = .ok s') ∧ s'.2.q = s₀.2.q ∧ s'.2.alpha = s₀.2.alpha := by
  obtain ⟨s, m, τ, r, R⟩ := run_exists P (holding_answers P.wf P.rigid hd) he S
  obtain ⟨N, hN⟩ := R.runs n
  refine ⟨N, s n, hN, ?_⟩
  clear hN N
  induction n with
  | zero => rw [R.start]; exact ⟨rfl, rfl⟩
  | succ n ih =>
    obtain ⟨N, h⟩ := R.period n
    have ha : ∀ l ∈ (s n).2.alpha, ∀ x ∈ l, x = 0 := by rw [ih.2]; exact hrest
    obtain ⟨d', m', fd', m'', e1, e2, -, e3⟩ := C82_equilibrium P.wf P.rigid h.sized h.valid h.ready (by rw [h.alpha]; exact ha) hd (R.state n).fits
      P.inertia P.subspace (P.exact (R.state n).fits h.valid h.ready.toPosReady)
    have ht := h.torque
    unfold holding at ht
    rw [e1, Res.bind_ok] at ht
    have ht : m'.jointTorque = τ n := Except.ok.inj ht
    have hacc := h.acc
    rw [← ht, e2] at hacc
    have := Except.ok.inj hacc
    have hr : m''.alphaD = r n := by rw [(Prod.mk.inj this).2]
    obtain ⟨h1, h2⟩ := h.still (fun j hj => (P.rigid.1 j hj).built) P.prec.ne' (R.state n) ha (by rw [← hr]; exact e3)
    exact ⟨h1.trans ih.1, h2.trans ih.2⟩

/-! ### Computed torques -/

/-- The controller that asks inverse dynamics for the torques of the accelerations `ref` (which may depend on the period and on the state). -/
noncomputable def computedTorque (d : ID ℝ) (mb : MultiBody ℝ) (ref : Nat → MBC ℝ → List (List ℝ)) (k : Nat) (m : MBC ℝ) : Res (List (List ℝ)) := do
  let r ← d.inverseDynamics mb { m with alphaD := ref k m }
  return r.2.jointTorque

/-- The accelerations asked for have the right sizes. -/
def RefSized (mb : MultiBody ℝ) (ref : Nat → MBC ℝ → List (List ℝ)) : Prop :=
  ∀ k (m : MBC ℝ), m.Sized mb → SizedDof mb (ref k m)

variable {ref : Nat → MBC ℝ → List (List ℝ)} {d : ID ℝ}

theorem computed_answers (wf : mb.WF) (hr : mb.Rigid) (hd : d.f.length = mb.nrBodies) (href : RefSized mb ref) :
    Answers mb (computedTorque d mb ref) := by
  intro k m sz hq hv
  have sz1 : MBC.Sized mb { m with alphaD := ref k m } := { sz with alphaD := href k m sz }
  have hsp : SamePosVel { m with alphaD := ref k m } m := rfl
  obtain ⟨hv1, hq1⟩ := hsp.ready hv hq
  obtain ⟨d', m', e, -, -, -, -, h⟩ := C26_inverse_dynamics wf hr sz1 hq1 hv1 hd
  refine ⟨m'.jointTorque, ?_, h.jointTorque⟩
  unfold computedTorque
  rw [e, Res.bind_ok]
  rfl

/-- With computed torques the accelerations of the simulation are those asked for. -/
theorem PeriodOf.follows (P : Plant mb solve step prec) (hd : d.f.length = mb.nrBodies) (href : RefSized mb ref) {s s' : FD ℝ × MBC ℝ} {k N : Nat}
    {m : MBC ℝ} {τ r : List (List ℝ)} (h : PeriodOf mb solve ext (computedTorque d mb ref) step prec s k m τ r N s') (S : SimState mb s) :
    r = ref k m := by
  have sz1 : MBC.Sized mb { m with alphaD := ref k m } := { h.sized with alphaD := href k m h.sized }
  have hsp : SamePosVel { m with alphaD := ref k m } m := rfl
  obtain ⟨hv1, hq1⟩ := hsp.ready h.ready h.valid
  have e1 := id_eq P.wf P.rigid sz1 hq1 hv1 hd rfl
  have ht := h.torque
  unfold computedTorque at ht
  rw [e1, Res.bind_ok] at ht
  have ht := Except.ok.inj ht
  have szt : MBC.Sized mb { m with jointTorque := τ } := { h.sized with jointTorque := h.sizedTorque }
  have hspt : SamePosVel { m with jointTorque := τ } m := rfl
  obtain ⟨hvt, hqt⟩ := hspt.ready h.ready h.valid
  have sz2 : MBC.Sized mb { m with jointTorque := τ, alphaD := ref k m } := { szt with alphaD := href k m h.sized }
  have hsp2 : SamePosVel { m with jointTorque := τ, alphaD := ref k m } m := rfl
  obtain ⟨hv2, hq2⟩ := hsp2.ready h.ready h.valid
  have e2 := id_eq P.wf P.rigid sz2 hq2 hv2 hd rfl
  obtain ⟨fd₁, e3⟩ := fd_unique P.wf P.rigid szt hqt hvt hd S.fits P.inertia P.subspace (P.exact S.fits hqt hvt.toPosReady) (href k m h.sized) e2 ht
  have := h.acc
  rw [e3] at this
  have := (Prod.mk.inj (Except.ok.inj this)).2
  exact (congrArg MBC.alphaD this).symm

/-- C87: with the torques that inverse dynamics computes for the accelerations `ref`, the simulated robot moves as asked: in every period the
accelerations of forward dynamics are `ref` of the state that forward kinematics and velocity found, whatever the inertias, gravity and external
forces, and the joints are integrated with them. -/
theorem C87_computed_torque (P : Plant mb solve step prec) (he : OnePerBody mb ext) {s₀ : FD ℝ × MBC ℝ} (S : SimState mb s₀)
    (hd : d.f.length = mb.nrBodies) (href : RefSized mb ref) :
    ∃ s : Nat → FD ℝ × MBC ℝ, s 0 = s₀ ∧
      (∀ n, ∃ N, ∀ fuel, N ≤ fuel → simulate fuel mb solve ext (computedTorque d mb ref) step prec n s₀ = .ok (s n)) ∧
      ∀ n, ∃ (m₁ m₂ : MBC ℝ) (N : Nat), forwardKinematics mb (s n).2 = .ok m₁ ∧ forwardVelocity mb m₁ = .ok m₂ ∧
        (s (n + 1)).2.alphaD = ref n { m₂ with force := ext n m₂ } ∧
        ∀ (i : Nat) (j : Joint ℝ) (x a b : List ℝ), mb.joints[i]? = some j → (s n).2.q[i]? = some x → (s n).2.alpha[i]? = some a →
          (ref n { m₂ with force := ext n m₂ })[i]? = some b →
          (s (n + 1)).2.alpha[i]? = some (List.zipWith (fun u v => u + v * step) a b) ∧
          ∃ y, (s (n + 1)).2.q[i]? = some y ∧ ∀ fuel, N ≤ fuel → jointIntegration fuel j.type a b step x prec = .ok y := by
  obtain ⟨s, m, τ, r, R⟩ := run_exists P (computed_answers P.wf P.rigid hd href) he S
  refine ⟨s, R.start, R.runs, fun n => ?_⟩
  obtain ⟨N, h⟩ := R.period n
  have hr := h.follows P hd href (R.state n)
  obtain ⟨m₁, m₂, k1, k2, hm⟩ := h.measured
  refine ⟨m₁, m₂, N, k1, k2, ?_⟩
  rw [← hm, ← hr]
  exact ⟨by rw [h.rest], h.moved⟩

/-! ### Braking -/

theorem PeriodOf.entry_alpha {s s' : FD ℝ × MBC ℝ} {k N : Nat} {m : MBC ℝ} {τ r : List (List ℝ)}
    (h : PeriodOf mb solve ext ctrl step prec s k m τ r N s') (wf : mb.WF) (S : SimState mb s) {i c : Nat} (hi : i < mb.bodies.length)
    (hc : c < mb.dofAt i) : entry s'.2.alpha i c = entry s.2.alpha i c + entry r i c * step := by
  have l1 := S.sized.q.length
  have l2 := S.sized.alpha.length
  have l3 := h.sizedAcc.length
  have hi' : i < mb.joints.length := by rw [wf.njoints]; exact hi
  have hj := List.getElem?_eq_getElem hi'
  have hx := List.getElem?_eq_getElem (l := s.2.q) (i := i) (by omega)
  have hal := List.getElem?_eq_getElem (l := s.2.alpha) (i := i) (by omega)
  have hb := List.getElem?_eq_getElem (l := r) (i := i) (by omega)
  have n1 := S.sized.alpha.getD_length wf hi
  have n2 := h.sizedAcc.getD_length wf hi
  rw [hal, Option.getD_some] at n1
  rw [hb, Option.getD_some] at n2
  unfold entry
  rw [(h.moved i _ _ _ _ hj hx hal hb).1, hal, hb]
  simp only [Option.getD_some, List.getD, List.getElem?_zipWith]
  rw [List.getElem?_eq_getElem (by omega : c < (s.2.alpha[i]'(by omega)).length), List.getElem?_eq_getElem (by omega : c < (r[i]'(by omega)).length)]
  rfl

theorem entry_scale (v : List (List ℝ)) (z : ℝ) (i c : Nat) : entry (v.map (·.map (z * ·))) i c = z * entry v i c := by
  unfold entry
  rw [List.getElem?_map]
  cases v[i]? with
  | none => simp
  | some l =>
    simp only [Option.map_some, Option.getD_some, List.getD, List.getElem?_map]
    cases l[c]? <;> simp

theorem sized_scale {v : List (List ℝ)} (h : SizedDof mb v) (z : ℝ) : SizedDof mb (v.map (·.map (z * ·))) := by
  unfold SizedDof at h ⊢
  rw [← h, List.map_map]
  exact List.map_congr_left fun l _ => by simp

/-- C87: with computed torques for the accelerations `-κ · alpha` every joint velocity of the simulation is multiplied by `1 - κ · step` in every
period, exactly. (So the robot brakes for `0 < κ · step < 2`, stops in one period for `κ · step = 1`, and speeds up without bound for `κ · step > 2`.) -/
theorem C87_braking (P : Plant mb solve step prec) (he : OnePerBody mb ext) {s₀ : FD ℝ × MBC ℝ} (S : SimState mb s₀) (hd : d.f.length = mb.nrBodies)
    (κ : ℝ) (n : Nat) :
    ∃ N s', (∀ fuel, N ≤ fuel → simulate fuel mb solve ext (computedTorque d mb fun _ m => m.alpha.map (·.map (-κ * ·))) step prec n s₀ = .ok s') ∧
      s'.2.alpha = s₀.2.alpha.map (·.map ((1 - κ * step) ^ n * ·)) := by
  have href : RefSized mb fun _ m => m.alpha.map (·.map (-κ * ·)) := fun k m sz => sized_scale sz.alpha _
  obtain ⟨s, m, τ, r, R⟩ := run_exists P (computed_answers P.wf P.rigid hd href) he S
  obtain ⟨N, hN⟩ := R.runs n
  refine ⟨N, s n, hN, SizedDof.ext_entry P.wf (R.state n).sized.alpha (sized_scale S.sized.alpha _) fun i c hi hc => ?_⟩
  clear hN N
  rw [entry_scale]
  induction n with
  | zero => rw [R.start]; simp
  | succ n ih =>
    obtain ⟨N, h⟩ := R.period n
    rw [h.entry_alpha P.wf (R.state n) hi hc, h.follows P hd href (R.state n), h.alpha, entry_scale, ih]
    ring

/-! ### Reaching a position -/

/-- The joints are revolute, prismatic, cylindrical or fixed. -/
def SimpleJoints (mb : MultiBody ℝ) : Prop := ∀ j ∈ mb.joints, j.type = .Rev ∨ j.type = .Prism ∨ j.type = .Cylindrical ∨ j.type = .Fixed

theorem SimpleJoints.sizedQ (h : SimpleJoints mb) (wf : mb.WF) {q : List (List ℝ)} : SizedQ mb q ↔ SizedDof mb q := by
  unfold SizedQ SizedDof
  have e : mb.joints.map (·.params) = mb.joints.map (·.dof) := List.map_congr_left fun j hj => by
    obtain ⟨h1, h2⟩ := (wf.built j hj).sizes
    rw [h1, h2]
    rcases h j hj with e | e | e | e <;> rw [e] <;> rfl
  rw [e]

theorem simple_integration (fuel : Nat) {t : JointType} (ht : t = .Rev ∨ t = .Prism ∨ t = .Cylindrical ∨ t = .Fixed) {x a b : List ℝ}
    (hx : x.length = Joint.nDof t) (ha : a.length = Joint.nDof t) (hb : b.length = Joint.nDof t) (step prec : ℝ) {y : List ℝ}
    (h : jointIntegration fuel t a b step x prec = .ok y) (c : Nat) (hc : c < Joint.nDof t) :
    y.getD c 0 = x.getD c 0 + a.getD c 0 * step + b.getD c 0 * step ^ 2 / 2 := by
  rcases ht with rfl | rfl | rfl | rfl
  · obtain ⟨x0, rfl⟩ := List.length_eq_one_iff.1 hx
    obtain ⟨a0, rfl⟩ := List.length_eq_one_iff.1 ha
    obtain ⟨b0, rfl⟩ := List.length_eq_one_iff.1 hb
    rw [(C41_one_parameter fuel x0 a0 b0 step prec).1] at h
    rw [← Except.ok.inj h]
    obtain rfl : c = 0 := by simpa [Joint.nDof] using hc
    rfl
  · obtain ⟨x0, rfl⟩ := List.length_eq_one_iff.1 hx
    obtain ⟨a0, rfl⟩ := List.length_eq_one_iff.1 ha
    obtain ⟨b0, rfl⟩ := List.length_eq_one_iff.1 hb
    rw [(C41_one_parameter fuel x0 a0 b0 step prec).2] at h
    rw [← Except.ok.inj h]
    obtain rfl : c = 0 := by simpa [Joint.nDof] using hc
    rfl
  · obtain ⟨x0, x1, rfl⟩ := List.length_eq_two.1 hx
    obtain ⟨a0, a1, rfl⟩ := List.length_eq_two.1 ha
    obtain ⟨b0, b1, rfl⟩ := List.length_eq_two.1 hb
    rw [C41_cylindrical fuel x0 x1 a0 a1 b0 b1 step prec] at h
    rw [← Except.ok.inj h]
    have : c < 2 := hc
    obtain rfl | rfl : c = 0 ∨ c = 1 := by omega
    all_goals rfl
  · exact absurd hc (by simp [Joint.nDof])

theorem PeriodOf.entry_q {s s' : FD ℝ × MBC ℝ} {k N : Nat} {m : MBC ℝ} {τ r : List (List ℝ)}
    (h : PeriodOf mb solve ext ctrl step prec s k m τ r N s') (wf : mb.WF) (hs : SimpleJoints mb) (S : SimState mb s) {i c : Nat}
    (hi : i < mb.bodies.length) (hc : c < mb.dofAt i) :
    entry s'.2.q i c = entry s.2.q i c + entry s.2.alpha i c * step + entry r i c * step ^ 2 / 2 := by
  have l1 := S.sized.q.length
  have l2 := S.sized.alpha.length
  have l3 := h.sizedAcc.length
  have hi' : i < mb.joints.length := by rw [wf.njoints]; exact hi
  have hj := List.getElem?_eq_getElem hi'
  have hx := List.getElem?_eq_getElem (l := s.2.q) (i := i) (by omega)
  have hal := List.getElem?_eq_getElem (l := s.2.alpha) (i := i) (by omega)
  have hb := List.getElem?_eq_getElem (l := r) (i := i) (by omega)
  have hmem := List.getElem_mem hi'
  have hdof := (wf.built _ hmem).sizes.2
  have hcd : c < Joint.nDof mb.joints[i].type := by
    rw [← hdof]
    simpa [MultiBody.dofAt, hi'] using hc
  obtain ⟨-, y, hy, hrun⟩ := h.moved i _ _ _ _ hj hx hal hb
  have := simple_integration N (hs _ hmem) ((((hs.sizedQ wf).1 S.sized.q).get hx hj).trans hdof) ((S.sized.alpha.get hal hj).trans hdof)
    ((h.sizedAcc.get hb hj).trans hdof) step prec (hrun N le_rfl) c hcd
  unfold entry
  rw [hy, hx, hal, hb]
  exact this

/-- The accelerations `-(q - goal) / step² - 3 alpha / (2 step)`. -/
noncomputable def deadbeat (step : ℝ) (goal : List (List ℝ)) (_ : Nat) (m : MBC ℝ) : List (List ℝ) :=
  List.zipWith (fun g (p : List ℝ × List ℝ) => List.zipWith (fun y (u : ℝ × ℝ) => -(u.1 - y) / step ^ 2 - 3 * u.2 / (2 * step)) g (p.1.zip p.2)) goal
    (m.q.zip m.alpha)

theorem deadbeat_sized (hs : SimpleJoints mb) (wf : mb.WF) {goal : List (List ℝ)} (hg : SizedDof mb goal) : RefSized mb (deadbeat step goal) := by
  intro k m sz
  have l0 := hg.length
  have l1 := sz.q.length
  have l2 := sz.alpha.length
  unfold SizedDof deadbeat
  refine List.ext_getElem (by simp; omega) fun i h1 h2 => ?_
  have hi : i < mb.joints.length := by simpa using h2
  have hj := List.getElem?_eq_getElem hi
  have n0 := hg.get (List.getElem?_eq_getElem (l := goal) (i := i) (by omega)) hj
  have n1 := ((hs.sizedQ wf).1 sz.q).get (List.getElem?_eq_getElem (l := m.q) (i := i) (by omega)) hj
  have n2 := sz.alpha.get (List.getElem?_eq_getElem (l := m.alpha) (i := i) (by omega)) hj
  simp
  omega

theorem deadbeat_entry (hs : SimpleJoints mb) (wf : mb.WF) {goal : List (List ℝ)} (hg : SizedDof mb goal) {m : MBC ℝ} (sz : m.Sized mb) (k : Nat)
    {i c : Nat} (hi : i < mb.bodies.length) (hc : c < mb.dofAt i) :
    entry (deadbeat step goal k m) i c = -(entry m.q i c - entry goal i c) / step ^ 2 - 3 * entry m.alpha i c / (2 * step) := by
  have n0 := hg.getD_length wf hi
  have n1 := ((hs.sizedQ wf).1 sz.q).getD_length wf hi
  have n2 := sz.alpha.getD_length wf hi
  have l0 := hg.length
  have l1 := sz.q.length
  have l2 := sz.alpha.length
  have hi' : i < mb.joints.length := by rw [wf.njoints]; exact hi
  have g0 := List.getElem?_eq_getElem (l := goal) (i := i) (by omega)
  have g1 := List.getElem?_eq_getElem (l := m.q) (i := i) (by omega)
  have g2 := List.getElem?_eq_getElem (l := m.alpha) (i := i) (by omega)
  rw [g0, Option.getD_some] at n0
  rw [g1, Option.getD_some] at n1
  rw [g2, Option.getD_some] at n2
  unfold entry deadbeat
  simp only [List.getElem?_zipWith, List.zip, g0, g1, g2, Option.getD_some, List.getD]
  rw [← n0] at hc
  have c1 := hc.trans_eq (n0.trans n1.symm)
  have c2 := hc.trans_eq (n0.trans n2.symm)
  rw [List.getElem?_eq_getElem hc, List.getElem?_eq_getElem c1, List.getElem?_eq_getElem c2]
  rfl

/-- C87: with computed torques for the accelerations `-(q - goal) / step² - 3 alpha / (2 step)` a robot with revolute, prismatic, cylindrical and
fixed joints is at the goal and at rest after two periods of the simulation, exactly, wherever it began, and stays there. -/
theorem C87_reaches (P : Plant mb solve step prec) (h0 : step ≠ 0) (hs : SimpleJoints mb) (he : OnePerBody mb ext) {s₀ : FD ℝ × MBC ℝ}
    (S : SimState mb s₀) (hd : d.f.length = mb.nrBodies) {goal : List (List ℝ)} (hg : SizedDof mb goal) {n : Nat} (hn : 2 ≤ n) :
    ∃ N s', (∀ fuel, N ≤ fuel → simulate fuel mb solve ext (computedTorque d mb (deadbeat step goal)) step prec n s₀ = .ok s') ∧
      s'.2.q = goal ∧ ∀ l ∈ s'.2.alpha, ∀ x ∈ l, x = 0 := by
  have href := deadbeat_sized (step := step) hs P.wf hg
  obtain ⟨s, m, τ, r, R⟩ := run_exists P (computed_answers P.wf P.rigid hd href) he S
  obtain ⟨N, hN⟩ := R.runs n
  have law : ∀ n i c, i < mb.bodies.length → c < mb.dofAt i →
      entry (s (n + 1)).2.q i c - entry goal i c = (entry (s n).2.q i c - entry goal i c) / 2 + entry (s n).2.alpha i c * step / 4 ∧
      entry (s (n + 1)).2.alpha i c * step = -(entry (s n).2.alpha i c * step) / 2 - (entry (s n).2.q i c - entry goal i c) := by
    intro n i c hi hc
    obtain ⟨N, h⟩ := R.period n
    rw [h.entry_q P.wf hs (R.state n) hi hc, h.entry_alpha P.wf (R.state n) hi hc, h.follows P hd href (R.state n),
      deadbeat_entry hs P.wf hg h.sized n hi hc, h.q, h.alpha]
    constructor
    · field_simp
      ring
    · field_simp
      ring
  have key : ∀ n i c, i < mb.bodies.length → c < mb.dofAt i →
      entry (s (n + 2)).2.q i c - entry goal i c = 0 ∧ entry (s (n + 2)).2.alpha i c = 0 := by
    intro n i c hi hc
    obtain ⟨a1, a2⟩ := law n i c hi hc
    obtain ⟨b1, b2⟩ := law (n + 1) i c hi hc
    refine ⟨by rw [b1, a1, a2]; ring, ?_⟩
    have : entry (s (n + 2)).2.alpha i c * step = 0 := by rw [b2, a1, a2]; ring
    exact (mul_eq_zero.1 this).resolve_right h0
  obtain ⟨n, rfl⟩ : ∃ k, n = k + 2 := ⟨n - 2, by omega⟩
  refine ⟨N, s (n + 2), hN, SizedDof.ext_entry P.wf ((hs.sizedQ P.wf).1 (R.state _).sized.q) hg fun i c hi hc => sub_eq_zero.1 (key n i c hi hc).1, ?_⟩
  have sz := (R.state (n + 2)).sized.alpha
  intro l hl x hx
  obtain ⟨i, hi, rfl⟩ := List.getElem_of_mem hl
  obtain ⟨c, hc, rfl⟩ := List.getElem_of_mem hx
  have hb : i < mb.bodies.length := by rw [← P.wf.njoints, ← sz.length]; exact hi
  have hl := sz.getD_length P.wf hb
  rw [List.getElem?_eq_getElem hi, Option.getD_some] at hl
  have := (key n i c hb (by omega)).2
  unfold entry at this
  rw [List.getElem?_eq_getElem hi, Option.getD_some, List.getD, List.getElem?_eq_getElem hc] at this
  exact this

/-! ### The sample robot -/

/-- The slider with its wheel, under gravity and forces that grow: the hypotheses of the theorems about the simulator are met. Held, it stays for ever; steered,
it reaches another position from a moving start in two periods. -/
example : ∃ (mb : MultiBody ℝ) (solve : DMat ℝ → List ℝ → List ℝ) (s₀ s₁ : FD ℝ × MBC ℝ) (ext : Nat → MBC ℝ → List (ForceVec ℝ)) (d : ID ℝ),
    Plant mb solve (1 / 100) (1 / 10 ^ 10) ∧ SimpleJoints mb ∧ OnePerBody mb ext ∧ SimState mb s₀ ∧ SimState mb s₁ ∧ d.f.length = mb.nrBodies ∧
    s₀.2.alpha = [[-9], [3]] ∧ s₁.2.alpha = [[0], [0]] ∧ s₁.2.gravity ≠ 0 ∧
    (∀ n, ∃ N s', (∀ fuel, N ≤ fuel → simulate fuel mb solve ext (holding d mb) (1 / 100) (1 / 10 ^ 10) n s₁ = .ok s') ∧ s'.2.q = s₁.2.q) ∧
    (∀ n, 2 ≤ n → ∃ N s', (∀ fuel, N ≤ fuel → simulate fuel mb solve ext (computedTorque d mb (deadbeat (1 / 100) [[1], [2]])) (1 / 100) (1 / 10 ^ 10)
      n s₀ = .ok s') ∧ s'.2.q = [[1], [2]]) := by
  obtain ⟨mb, fd, _, mbc, wf, hr, -, hf, hI, hS, h, hty, hm⟩ := Sample.falling
  obtain ⟨solve, hs⟩ := SolvesPositive.exists mb.nrDof
  have hnj : mb.joints.length = 2 := by have := congrArg List.length hty; simpa using this
  have P : Plant mb solve (1 / 100) (1 / 10 ^ 10) := ⟨wf, hr, hI, hS, hs, by norm_num, by positivity⟩
  have hsj : SimpleJoints mb := by
    intro j hj
    have : j.type ∈ mb.joints.map (·.type) := List.mem_map_of_mem hj
    rw [hty] at this
    simp only [List.mem_cons, List.not_mem_nil, or_false] at this
    rcases this with e | e
    · exact .inr (.inl e)
    · exact .inl e
  have hsz : SizedDof mb ([[0], [0]] : List (List ℝ)) := by
    have := (h.sized 0).alpha
    rw [(hm 0).2.1] at this
    exact this
  have S₀ : SimState mb (fd, mbc 1) := ⟨hf, h.sized 1, (h.moves 1).valid 1⟩
  have S₁ : SimState mb (fd, { mbc 0 with alpha := [[0], [0]] }) := ⟨hf, { h.sized 0 with alpha := hsz }, (h.moves 0).valid 0⟩
  have hE : OnePerBody mb fun k _ => [⟨0, ⟨k, 0, 5⟩⟩, ⟨⟨1, 0, 0⟩, 0⟩] := fun k m => by rw [← wf.njoints, hnj]; rfl
  have hd : (⟨List.replicate mb.nrBodies 0⟩ : ID ℝ).f.length = mb.nrBodies := by simp
  refine ⟨mb, solve, _, _, _, _, P, hsj, hE, S₀, S₁, hd, ?_, rfl, ?_, fun n => ?_, fun n hn => ?_⟩
  · show (mbc 1).alpha = _
    rw [(hm 1).2.1, mul_one]
  · show (mbc 0).gravity ≠ 0
    rw [(hm 0).2.2.2.1]
    intro e
    simpa using congrArg Vec3.z e
  · obtain ⟨N, s', h1, h2, -⟩ := C87_held P hE S₁ hd (by simp) n
    exact ⟨N, s', h1, h2⟩
  · obtain ⟨N, s', h1, h2, -⟩ := C87_reaches P (by norm_num) hsj hE S₀ hd (goal := [[1], [2]]) hsz hn
    exact ⟨N, s', h1, h2⟩

end RBDyn
