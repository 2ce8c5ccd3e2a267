import Verif.Props.AllForever
import Verif.Lemmas.StepFamily

/-! Property C92: simulations of robots with joints of all types converge to the motions. -/

namespace RBDyn
open scoped Mat3 Topology

variable {mb : MultiBody ℝ} {solve : DMat ℝ → List ℝ → List ℝ} {law : ℝ → List (List ℝ) → List (List ℝ) → List (List ℝ)}
  {env : ℝ → List (List ℝ) → List (List ℝ) → List (ForceVec ℝ)} {γ : Vec3 ℝ}

/-- Steps up to `h₀` of joints of all types in states up to `B` are Euler steps up to `K` times the square of the step. -/
def EulerSteps (B prec K h₀ : ℝ) : Prop := ∀ (t : JointType) (h : ℝ) (x a b : List ℝ), 0 ≤ h → h ≤ h₀ → a.length = Joint.nDof t → b.length = Joint.nDof t →
  ValidParam t x → (∀ i, |x.getD i 0| ≤ B) → (∀ i, |a.getD i 0| ≤ B) → (∀ i, |b.getD i 0| ≤ B) →
  ∃ y, (∀ fuel, 1 ≤ fuel → jointIntegration fuel t a b h x prec = .ok y) ∧
    ∀ i, |y.getD i 0 - x.getD i 0 - h * (coordRate t x a).getD i 0| ≤ K * h ^ 2

theorem eulerSteps {B prec : ℝ} (hB : 0 ≤ B) (hp : 0 < prec) : ∃ K h₀ : ℝ, 0 ≤ K ∧ 0 < h₀ ∧ EulerSteps B prec K h₀ := by
  choose K h₀ hK hh H using fun t => step_of t hB hp
  have k := hK
  refine ⟨K .Rev + K .Prism + K .Spherical + K .Planar + K .Cylindrical + K .Free + K .Fixed,
    min (h₀ .Rev) (min (h₀ .Prism) (min (h₀ .Spherical) (min (h₀ .Planar) (min (h₀ .Cylindrical) (min (h₀ .Free) (h₀ .Fixed)))))), ?_, ?_, ?_⟩
  · have := k .Rev
    have := k .Prism
    have := k .Spherical
    have := k .Planar
    have := k .Cylindrical
    have := k .Free
    have := k .Fixed
    linarith
  · simp only [lt_min_iff]
    exact ⟨hh _, hh _, hh _, hh _, hh _, hh _, hh _⟩
  · intro t h x a b h0 h1 la lb hx bx ba bb
    simp only [le_min_iff] at h1
    obtain ⟨y, e1, e2⟩ := H t h x a b h0 (by cases t <;> tauto) la lb hx bx ba bb
    refine ⟨y, e1, fun i => (e2 i).trans (mul_le_mul_of_nonneg_right ?_ (sq_nonneg h))⟩
    have := k .Rev
    have := k .Prism
    have := k .Spherical
    have := k .Planar
    have := k .Cylindrical
    have := k .Free
    have := k .Fixed
    cases t <;> linarith

/-- C92: one step of `jointIntegration` with a short enough period moves a joint of any type along the rate of its parameters, up to a constant times the
square of the period, with one constant for all bounded parameters (with unit quaternions), velocities and accelerations; and one call without recursion is
enough. -/
theorem C92_joint_step (t : JointType) {B prec : ℝ} (hB : 0 ≤ B) (hp : 0 < prec) :
    ∃ K h₀ : ℝ, 0 < h₀ ∧ ∀ (h : ℝ) (x a b : List ℝ), 0 ≤ h → h ≤ h₀ → a.length = Joint.nDof t → b.length = Joint.nDof t → ValidParam t x →
      (∀ i, |x.getD i 0| ≤ B) → (∀ i, |a.getD i 0| ≤ B) → (∀ i, |b.getD i 0| ≤ B) →
      ∃ y, (∀ fuel, 1 ≤ fuel → jointIntegration fuel t a b h x prec = .ok y) ∧
        ∀ i, |y.getD i 0 - (x.getD i 0 + h * (coordRate t x a).getD i 0)| ≤ K * h ^ 2 := by
  obtain ⟨K, h₀, -, hh, H⟩ := eulerSteps hB hp
  refine ⟨K, h₀, hh, fun h x a b h0 h1 la lb hx bx ba bb => ?_⟩
  obtain ⟨y, e1, e2⟩ := H t h x a b h0 h1 la lb hx bx ba bb
  exact ⟨y, e1, fun i => by rw [← sub_sub]; exact e2 i⟩

/-- A tumbling free joint. -/
example : ∃ K h₀ : ℝ, 0 < h₀ ∧ ∀ h, 0 ≤ h → h ≤ h₀ → ∃ y,
    jointIntegration 1 .Free [1, 2, 3, 4, 5, 6] [6, 5, 4, 3, 2, 1] h [1, 0, 0, 0, 7, 8, 9] (1 / 10 ^ 10) = .ok y ∧ |y.getD 1 0 - h / 2| ≤ K * h ^ 2 ∧
      |y.getD 4 0 - (7 + 4 * h)| ≤ K * h ^ 2 := by
  obtain ⟨K, h₀, hh, H⟩ := C92_joint_step .Free (B := 9) (prec := 1 / 10 ^ 10) (by norm_num) (by norm_num)
  refine ⟨K, h₀, hh, fun h h0 h1 => ?_⟩
  have small : ∀ l : List ℝ, (∀ c ∈ l, |c| ≤ 9) → ∀ i, |l.getD i 0| ≤ 9 := fun l hl i => by
    rw [List.getD_eq_getElem?_getD]
    cases e : l[i]? with
    | none => simp
    | some c => exact hl c (List.mem_of_getElem? e)
  obtain ⟨y, e1, e2⟩ := H h [1, 0, 0, 0, 7, 8, 9] [1, 2, 3, 4, 5, 6] [6, 5, 4, 3, 2, 1] h0 h1 rfl rfl ⟨rfl, by norm_num⟩
    (small _ (by simp; norm_num)) (small _ (by simp; norm_num)) (small _ (by simp; norm_num))
  refine ⟨y, e1 1 le_rfl, ?_, ?_⟩
  · have := e2 1
    simp [coordRate] at this
    rwa [div_eq_mul_inv]
  · have := e2 4
    simp [coordRate, Quat.toRot, Mat3.mulVec] at this
    rwa [mul_comm 4]

theorem full_answers (R : Robot mb solve) (hl : FullLaw mb law) (step : ℝ) : Answers mb (sampled law step) := by
  intro k m sz _ _
  refine ⟨_, rfl, ?_⟩
  have := hl.sized (m.fullCoords mb (k * step))
  unfold MBC.fullCoords at this
  dsimp only at this
  rwa [unflatQ_flatQ R.wf sz.q, MultiBody.unflat_flat R.wf sz.alpha] at this

theorem fullCoords_le {t δ : ℝ} {m m' : MBC ℝ} (h0 : 0 ≤ δ) (h1 : ∀ i a, i < mb.bodies.length → a < mb.paramsAt i → |entry m.q i a - entry m'.q i a| ≤ δ)
    (h2 : ∀ i a, i < mb.bodies.length → a < mb.dofAt i → |entry m.alpha i a - entry m'.alpha i a| ≤ δ) : ‖m.fullCoords mb t - m'.fullCoords mb t‖ ≤ δ := by
  unfold MBC.fullCoords
  rw [Prod.mk_sub_mk, Prod.mk_sub_mk, Prod.norm_mk, Prod.norm_mk, sub_self, norm_zero]
  refine max_le h0 (max_le ?_ ?_)
  · exact (pi_norm_le_iff_of_nonneg h0).2 fun x => h1 _ _ x.1.2 x.2.2
  · exact (pi_norm_le_iff_of_nonneg h0).2 fun x => h2 _ _ x.1.2 x.2.2

theorem le_fullCoords {t δ : ℝ} {m m' : MBC ℝ} (h : ‖m.fullCoords mb t - m'.fullCoords mb t‖ ≤ δ) :
    (∀ i a, i < mb.bodies.length → a < mb.paramsAt i → |entry m.q i a - entry m'.q i a| ≤ δ) ∧
    ∀ i a, i < mb.bodies.length → a < mb.dofAt i → |entry m.alpha i a - entry m'.alpha i a| ≤ δ := by
  have h1 := (norm_snd_le (m.fullCoords mb t - m'.fullCoords mb t)).trans h
  refine ⟨fun i a hi ha => ?_, fun i a hi ha => ?_⟩
  · exact (norm_le_pi_norm _ (⟨⟨i, hi⟩, ⟨a, ha⟩⟩ : mb.Px)).trans ((norm_fst_le _).trans h1)
  · exact (norm_le_pi_norm _ (⟨⟨i, hi⟩, ⟨a, ha⟩⟩ : mb.Ix)).trans ((norm_snd_le _).trans h1)

/-- All numbers of a state are bounded by its norm. -/
theorem entry_le_norm (wf : mb.WF) {m : MBC ℝ} (hq : SizedQ mb m.q) (ha : SizedDof mb m.alpha) {t B : ℝ} (h : ‖m.fullCoords mb t‖ ≤ B) (i a : Nat) :
    |entry m.q i a| ≤ B ∧ |entry m.alpha i a| ≤ B := by
  have h1 := (norm_snd_le (m.fullCoords mb t)).trans h
  have hB : 0 ≤ B := (norm_nonneg _).trans h
  constructor
  · by_cases hc : i < mb.bodies.length ∧ a < mb.paramsAt i
    · exact (norm_le_pi_norm (m.fullCoords mb t).2.1 (⟨⟨i, hc.1⟩, ⟨a, hc.2⟩⟩ : mb.Px)).trans ((norm_fst_le _).trans h1)
    · rw [entry_beyondQ wf hq hc, abs_zero]
      exact hB
  · by_cases hc : i < mb.bodies.length ∧ a < mb.dofAt i
    · exact (norm_le_pi_norm (m.fullCoords mb t).2.2 (⟨⟨i, hc.1⟩, ⟨a, hc.2⟩⟩ : mb.Ix)).trans ((norm_snd_le _).trans h1)
    · rw [entry_beyond wf ha hc, abs_zero]
      exact hB

/-- The accelerations of a period are those of the differential equation. -/
theorem PeriodOf.fullAcc (R : Robot mb solve) {step prec : ℝ} {s s' : FD ℝ × MBC ℝ} {k N : Nat} {m : MBC ℝ}
    {τ r : List (List ℝ)} (h : PeriodOf mb solve (sampledForces env step) (sampled law step) step prec s k m τ r N s') (S : SimState mb s)
    (hg : s.2.gravity = γ) : mb.flat r = accelUnit mb law env γ (s.2.fullCoords mb (k * step)) := by
  have hm : m.force = env (k * step) m.q m.alpha := by
    obtain ⟨m₁, m₂, -, -, e⟩ := h.measured
    rw [e]
    rfl
  have ht : τ = law (k * step) m.q m.alpha := (Except.ok.inj h.torque).symm
  obtain ⟨fd', r', e1, -, hr⟩ := R.acc (m := { m with jointTorque := τ }) (t := k * step) (law := law) (env := env) (γ := γ)
    { h.sized with jointTorque := h.sizedTorque } h.valid
    ⟨⟨h.ready.parentToSon, h.ready.bodyPosW, h.ready.motionSubspace⟩, h.ready.jointVelocity, h.ready.bodyVelB, h.ready.bodyVelW⟩
    (h.gravity.trans hg) ht hm S.fits
  have hrr : r' = r := by
    have := h.acc
    rw [e1] at this
    exact congrArg MBC.alphaD (Prod.mk.inj (Except.ok.inj this)).2
  rw [hrr] at hr
  rw [hr]
  unfold MBC.fullCoords
  dsimp only
  rw [h.q, h.alpha]

/-- One period is an Euler step up to the square of its length. -/
theorem PeriodOf.fullEuler (R : Robot mb solve) {step prec B K h₀ : ℝ} (hK : 0 ≤ K) (E : EulerSteps B prec K h₀) (h0 : 0 ≤ step) (h1 : step ≤ h₀)
    {s s' : FD ℝ × MBC ℝ} {k N : Nat} {m : MBC ℝ}
    {τ r : List (List ℝ)} (h : PeriodOf mb solve (sampledForces env step) (sampled law step) step prec s k m τ r N s') (S : SimState mb s)
    (hg : s.2.gravity = γ) (hB : ∀ i a, |entry s.2.q i a| ≤ B ∧ |entry s.2.alpha i a| ≤ B) (hr : ∀ i a, |entry r i a| ≤ B) :
    ‖s'.2.fullCoords mb ((k + 1 : ℕ) * step) - s.2.fullCoords mb (k * step) - step • fullFlow mb law env γ (s.2.fullCoords mb (k * step))‖ ≤ step ^ 2 * K := by
  rw [fullFlow_unit R.wf (MBC.fullCoords_unit R.wf S.valid _), ← h.fullAcc R S hg]
  have hpos : 0 ≤ step ^ 2 * K := by positivity
  unfold MBC.fullCoords
  rw [Prod.smul_mk, Prod.smul_mk, Prod.mk_sub_mk, Prod.mk_sub_mk, Prod.mk_sub_mk, Prod.mk_sub_mk, Prod.norm_mk, Prod.norm_mk]
  refine max_le ?_ (max_le ?_ ?_)
  · have : ((k + 1 : ℕ) : ℝ) * step - k * step - step • (1 : ℝ) = 0 := by push_cast; simp; ring
    rw [this, norm_zero]
    exact hpos
  · refine (pi_norm_le_iff_of_nonneg hpos).2 fun z => ?_
    have hi := z.1.2
    obtain ⟨j, ej, -⟩ := R.wf.joint_get hi
    have l1 := S.sized.q.getD_length R.wf hi
    have l2 := S.sized.alpha.getD_length R.wf hi
    have l3 := h.sizedAcc.getD_length R.wf hi
    have hi' : z.1.1 < mb.joints.length := by rw [R.wf.njoints]; exact hi
    have hx := List.getElem?_eq_getElem (l := s.2.q) (i := z.1.1) (by rw [S.sized.q.length]; exact hi')
    have ha := List.getElem?_eq_getElem (l := s.2.alpha) (i := z.1.1) (by rw [S.sized.alpha.length]; exact hi')
    have hb := List.getElem?_eq_getElem (l := r) (i := z.1.1) (by rw [h.sizedAcc.length]; exact hi')
    obtain ⟨-, y, ey, hy⟩ := h.moved z.1.1 j _ _ _ ej hx ha hb
    generalize hx' : s.2.q[z.1.1]'(by rw [S.sized.q.length]; exact hi') = x at *
    generalize ha' : s.2.alpha[z.1.1]'(by rw [S.sized.alpha.length]; exact hi') = α at *
    generalize hb' : r[z.1.1]'(by rw [h.sizedAcc.length]; exact hi') = β at *
    rw [hx, Option.getD_some] at l1
    rw [ha, Option.getD_some, R.wf.dof_type hi, typeAt_eq ej] at l2
    rw [hb, Option.getD_some, R.wf.dof_type hi, typeAt_eq ej] at l3
    have hv : ValidParam j.type x := by
      have := List.forall₂_iff_get.1 S.valid
      have := this.2 z.1.1 hi' (by rw [S.sized.q.length]; exact hi')
      rw [List.getElem?_eq_getElem hi'] at ej
      have ej := Option.some.inj ej
      simp only [List.get_eq_getElem] at this
      rwa [ej, hx'] at this
    obtain ⟨y', ey', hy'⟩ := E j.type step x α β h0 h1 l2 l3 hv (fun a => by rw [← entry_list _ hx]; exact (hB _ _).1)
      (fun a => by rw [← entry_list _ ha]; exact (hB _ _).2) (fun a => by rw [← entry_list _ hb]; exact hr _ _)
    have e : y' = y := by
      have a1 := ey' (max N 1) (le_max_right _ _)
      rw [hy (max N 1) (le_max_left _ _)] at a1
      exact (Except.ok.inj a1).symm
    rw [e] at hy'
    have := hy' z.2
    rw [← entry_list _ hx, ← entry_list _ ey] at this
    have ec : mb.coordRateAt ((k * step, mb.flatQ s.2.q, mb.flat s.2.alpha) : mb.FullSpace) z.1 z.2 = (coordRate j.type x α).getD z.2 0 := by
      unfold MultiBody.coordRateAt
      dsimp only
      rw [unflatQ_flatQ R.wf S.sized.q, MultiBody.unflat_flat R.wf S.sized.alpha, typeAt_eq ej, hx, ha]
      rfl
    simp only [Pi.sub_apply, Pi.smul_apply, smul_eq_mul, MultiBody.flatQ, Real.norm_eq_abs]
    rw [ec, mul_comm (step ^ 2)]
    exact this
  · refine (pi_norm_le_iff_of_nonneg hpos).2 fun z => ?_
    have := h.entry_alpha R.wf S z.1.2 z.2.2
    simp only [Pi.sub_apply, Pi.smul_apply, smul_eq_mul, MultiBody.flat, Real.norm_eq_abs]
    rw [this]
    have e : entry s.2.alpha z.1 z.2 + entry r z.1 z.2 * step - entry s.2.alpha z.1 z.2 - step * entry r z.1 z.2 = 0 := by ring
    rw [e, abs_zero]
    exact hpos

/-- C92: the simulator (forward kinematics, forward velocity, forward dynamics and `integration` in every period) converges to the motion of the robot also
with spherical, planar and free joints: for every motion on the times from 0 to `T` and every precision of the integration there are a constant `C` and a
bound for the period such that the simulation with any smaller period `step`, started with an error of at most `δ`, never fails and is after `n` periods
within `C (δ + step)` of the motion at the time `n step`, in all joint parameters and velocities, until `T`. -/
theorem C92_converges (R : Robot mb solve) (hl : FullLaw mb law) (he : FullForces mb env) {T : ℝ} (hT : 0 ≤ T) {mbc : ℝ → MBC ℝ}
    (h : Motion mb solve law env γ (Set.Icc 0 T) mbc) {prec : ℝ} (hp : 0 < prec) :
    ∃ C h₀ : ℝ, 0 < C ∧ 0 < h₀ ∧ ∀ (step δ : ℝ) (s₀ : FD ℝ × MBC ℝ), 0 < step → step ≤ h₀ → 0 ≤ δ → δ ≤ h₀ → SimState mb s₀ →
      s₀.2.gravity = γ → (∀ i a, i < mb.bodies.length → a < mb.paramsAt i → |entry s₀.2.q i a - entry (mbc 0).q i a| ≤ δ) →
      (∀ i a, i < mb.bodies.length → a < mb.dofAt i → |entry s₀.2.alpha i a - entry (mbc 0).alpha i a| ≤ δ) →
      ∀ n : ℕ, n * step ≤ T → ∃ N s',
        (∀ fuel, N ≤ fuel → simulate fuel mb solve (sampledForces env step) (sampled law step) step prec n s₀ = .ok s') ∧
        (∀ i a, i < mb.bodies.length → a < mb.paramsAt i → |entry s'.2.q i a - entry (mbc (n * step)).q i a| ≤ C * (δ + step)) ∧
        ∀ i a, i < mb.bodies.length → a < mb.dofAt i → |entry s'.2.alpha i a - entry (mbc (n * step)).alpha i a| ≤ C * (δ + step) := by
  have hG := fullFlow_diff R hl he γ
  obtain ⟨Rad, hRad, key⟩ := euler_converges_near hG hT (x := fun s => (mbc s).fullCoords mb s) fun t ht => h.fullFlow R ht
  obtain ⟨A, hA0, hA⟩ := bounded_on_ball hG.continuous Rad
  obtain ⟨K, h₁, hK, hh₁, E⟩ := eulerSteps (B := Rad + A) (by positivity) hp
  obtain ⟨C, h₂, hC, hh₂, key⟩ := key K hK
  refine ⟨C, min h₁ h₂, hC, lt_min hh₁ hh₂, fun step δ s₀ h1 h2 h4 h5 S hg hs1 hs2 n hn => ?_⟩
  obtain ⟨s, m, τ, r, Rn⟩ := run_exists (R.plant h1.le hp) (full_answers R hl step) (ext := sampledForces env step)
    (fun k m => he.length _ _ _) S
  obtain ⟨N, hN⟩ := Rn.runs n
  have hgr : ∀ k, (s k).2.gravity = γ := fun k => by
    induction k with
    | zero => rw [Rn.start]; exact hg
    | succ k ih =>
      obtain ⟨_, hp⟩ := Rn.period k
      rw [hp.rest, ← ih]
      exact hp.gravity
  have := key step δ (fun k => (s k).2.fullCoords mb (k * step)) h1 (h2.trans (min_le_right _ _)) (h5.trans (min_le_right _ _))
    (by simpa [Rn.start] using fullCoords_le (t := 0) h4 hs1 hs2)
    (fun k _ hk => by
      obtain ⟨_, hp⟩ := Rn.period k
      refine hp.fullEuler R hK E h1.le (h2.trans (min_le_left _ _)) (Rn.state k) (hgr k) (fun i a => ?_) fun i a => ?_
      · have := entry_le_norm R.wf (Rn.state k).sized.q (Rn.state k).sized.alpha hk i a
        exact ⟨this.1.trans (by linarith), this.2.trans (by linarith)⟩
      · by_cases hc : i < mb.bodies.length ∧ a < mb.dofAt i
        · have e := hp.fullAcc R (Rn.state k) (hgr k)
          have b := hA _ hk
          rw [fullFlow_unit R.wf (MBC.fullCoords_unit R.wf (Rn.state k).valid _), ← e] at b
          have b2 := (norm_snd_le _).trans ((norm_snd_le _).trans b)
          have b3 := (norm_le_pi_norm (mb.flat (r k)) (⟨⟨i, hc.1⟩, ⟨a, hc.2⟩⟩ : mb.Ix)).trans b2
          exact le_trans b3 (by linarith)
        · rw [entry_beyond R.wf hp.sizedAcc hc, abs_zero]
          positivity) n hn
  exact ⟨N, s n, hN, le_fullCoords this⟩

/-- C92: with more and more periods of length `t / n` the state after `n` periods tends to that of the motion at the time `t`. -/
theorem C92_limit (R : Robot mb solve) (hl : FullLaw mb law) (he : FullForces mb env) {T : ℝ} {mbc : ℝ → MBC ℝ}
    (h : Motion mb solve law env γ (Set.Icc 0 T) mbc) {t : ℝ} (ht : 0 < t) (htT : t ≤ T) {prec ε : ℝ} (hp : 0 < prec) (hε : 0 < ε) :
    ∃ n₀ : ℕ, ∀ (n : ℕ) (s₀ : FD ℝ × MBC ℝ), n₀ ≤ n → SimState mb s₀ → s₀.2.gravity = γ → s₀.2.q = (mbc 0).q →
      s₀.2.alpha = (mbc 0).alpha → ∃ N s',
        (∀ fuel, N ≤ fuel → simulate fuel mb solve (sampledForces env (t / n)) (sampled law (t / n)) (t / n) prec n s₀ = .ok s') ∧
        (∀ i a, i < mb.bodies.length → a < mb.paramsAt i → |entry s'.2.q i a - entry (mbc t).q i a| < ε) ∧
        ∀ i a, i < mb.bodies.length → a < mb.dofAt i → |entry s'.2.alpha i a - entry (mbc t).alpha i a| < ε := by
  obtain ⟨C, h₀, hC, hh, key⟩ := C92_converges R hl he (ht.le.trans htT) h hp
  obtain ⟨n₀, hn₀⟩ := exists_nat_gt (max (t / h₀) (C * t / ε))
  refine ⟨max n₀ 1, fun n s₀ hn S hg hq ha => ?_⟩
  have hn1 : (1 : ℝ) ≤ n := by exact_mod_cast (le_max_right _ _).trans hn
  have hn0 : (0 : ℝ) < n := by linarith
  have hn2 : max (t / h₀) (C * t / ε) < n := hn₀.trans_le (by exact_mod_cast (le_max_left _ _).trans hn)
  have b1 : t / n ≤ h₀ := by
    have := (le_max_left _ _).trans_lt hn2
    rw [div_lt_iff₀ hh] at this
    rw [div_le_iff₀ hn0]
    linarith
  have b2 : C * (t / n) < ε := by
    have := (le_max_right _ _).trans_lt hn2
    rw [div_lt_iff₀ hε] at this
    rw [← mul_div_assoc, div_lt_iff₀ hn0]
    linarith
  have e : (n : ℝ) * (t / n) = t := by field_simp
  obtain ⟨N, s', h1, h2, h3⟩ := key (t / n) 0 s₀ (by positivity) b1 le_rfl hh.le S hg (fun i a _ _ => by rw [hq]; simp) (fun i a _ _ => by rw [ha]; simp) n
    (by rw [e]; exact htT)
  rw [e, zero_add] at h2 h3
  exact ⟨N, s', h1, fun i a hi hal => (h2 i a hi hal).trans_lt b2, fun i a hi hal => (h3 i a hi hal).trans_lt b2⟩

/-- C92: under the conditions of `C91_forever` the simulator follows one motion over any time: from every state there is one motion from time 0 on, and
simulations of any length converge to it when the period goes to zero. -/
theorem C92_simulation (R : Robot mb solve) (hroot : mb.LooseRoots) (hd : mb.DirOK) (hl : FullLaw mb law) (he : FullForces mb env)
    (hll : FullLinearLaw mb law) (hle : FullLinearForces mb env) (γ : Vec3 ℝ) {q₀ α₀ : List (List ℝ)} (hq : ValidQ mb q₀) (ha : SizedDof mb α₀) :
    ∃ mbc : ℝ → MBC ℝ, Motion mb solve law env γ Set.univ mbc ∧
      (∀ mbc', Motion mb solve law env γ (Set.Ici 0) mbc' → (mbc' 0).q = q₀ → (mbc' 0).alpha = α₀ →
        ∀ t, 0 ≤ t → (mbc' t).q = (mbc t).q ∧ (mbc' t).alpha = (mbc t).alpha) ∧
      ∀ t prec ε, 0 < t → 0 < prec → 0 < ε → ∃ n₀ : ℕ, ∀ (n : ℕ) (s₀ : FD ℝ × MBC ℝ), n₀ ≤ n → SimState mb s₀ → s₀.2.gravity = γ →
        s₀.2.q = q₀ → s₀.2.alpha = α₀ → ∃ N s',
          (∀ fuel, N ≤ fuel → simulate fuel mb solve (sampledForces env (t / n)) (sampled law (t / n)) (t / n) prec n s₀ = .ok s') ∧
          (∀ i a, i < mb.bodies.length → a < mb.paramsAt i → |entry s'.2.q i a - entry (mbc t).q i a| < ε) ∧
          ∀ i a, i < mb.bodies.length → a < mb.dofAt i → |entry s'.2.alpha i a - entry (mbc t).alpha i a| < ε := by
  obtain ⟨mbc, h1, h2, h⟩ := C91_forever R hroot hd hl he hll hle γ hq ha 0
  refine ⟨mbc, h, fun mbc' h' e1 e2 t ht => ?_, fun t prec ε ht hp hε => ?_⟩
  · have := C91_unique R hl he (a := 0) (b := t) (t₀ := 0) ⟨le_rfl, ht⟩ (h'.mono fun s hs => hs.1) (h.mono (Set.subset_univ _)) (by rw [e1, h1])
      (by rw [e2, h2]) (t := t) ⟨ht, le_rfl⟩
    exact ⟨this.1, this.2.1⟩
  · obtain ⟨n₀, key⟩ := C92_limit R hl he (h.mono (Set.subset_univ (Set.Icc 0 t))) ht le_rfl hp hε
    exact ⟨n₀, fun n s₀ hn S hg e1 e2 => key n s₀ hn S hg (by rw [e1, h1]) (by rw [e2, h2])⟩

/-! ### Examples -/

/-- Simulations of the robot with free, spherical, revolute and planar joints under springs, dampers, a drive and a breeze converge to its motion. -/
example {prec : ℝ} (hp : 0 < prec) {T : ℝ} (hT : 0 < T) : ∃ (mb : MultiBody ℝ) (solve : DMat ℝ → List ℝ → List ℝ),
    mb.joints.map (·.type) = [.Free, .Spherical, .Rev, .Planar] ∧ ∃ mbc : ℝ → MBC ℝ, (mbc 0).q = [[0, 1, 0, 0, 7, 8, 9], [1, 0, 0, 0], [4], [1, 2, 3]] ∧
      (mbc 0).alpha = [[1, 2, 3, 4, 5, 6], [1, 2, 3], [6], [7, 8, 9]] ∧ Motion mb solve (springs mb) (breeze mb) ⟨0, 0, 9⟩ Set.univ mbc ∧
      ∃ C h₀ : ℝ, 0 < C ∧ 0 < h₀ ∧ ∀ (step : ℝ) (s₀ : FD ℝ × MBC ℝ), 0 < step → step ≤ h₀ → SimState mb s₀ → s₀.2.gravity = ⟨0, 0, 9⟩ →
        s₀.2.q = (mbc 0).q → s₀.2.alpha = (mbc 0).alpha → ∀ n : ℕ, n * step ≤ T → ∃ N s',
          (∀ fuel, N ≤ fuel → simulate fuel mb solve (sampledForces (breeze mb) step) (sampled (springs mb) step) step prec n s₀ = .ok s') ∧
          |entry s'.2.q 0 4 - entry (mbc (n * step)).q 0 4| ≤ C * step := by
  obtain ⟨mb, solve, R, h1, h2, h3, -⟩ := Sample.robot
  have hq : ValidQ mb [[0, 1, 0, 0, 7, 8, 9], [1, 0, 0, 0], [4], [1, 2, 3]] := by
    unfold ValidQ
    refine (List.forall₂_map_left_iff (f := fun j : Joint ℝ => j.type) (R := ValidParam)).1 ?_
    rw [h3]
    refine .cons ⟨rfl, ?_⟩ (.cons ⟨rfl, ?_⟩ (.cons ⟨rfl, trivial⟩ (.cons ⟨rfl, trivial⟩ .nil)))
    · show (0 : ℝ) * 0 + 1 * 1 + 0 * 0 + 0 * 0 = 1
      norm_num
    · show (1 : ℝ) * 1 + 0 * 0 + 0 * 0 + 0 * 0 = 1
      norm_num
  have ha : SizedDof mb [[1, 2, 3, 4, 5, 6], [1, 2, 3], [6], [7, 8, 9]] := by
    have e : mb.joints.map Joint.dof = (mb.joints.map (·.type)).map Joint.nDof := by
      rw [List.map_map]
      refine List.map_congr_left fun j hj => ?_
      exact (R.rigid.joints j hj).built.sizes.2
    unfold SizedDof
    rw [e, h3]
    rfl
  obtain ⟨mbc, k1, k2, k⟩ := C91_forever R h1 h2 (springs_full R.wf) (breeze_full R.wf) (springs_full_linear R.wf)
    (C91_bounded_forces R breeze_full_bounded) ⟨0, 0, 9⟩ hq ha 0
  obtain ⟨C, h₀, hC, hh, key⟩ := C92_converges R (springs_full R.wf) (breeze_full R.wf) hT.le (k.mono (Set.subset_univ _)) hp
  refine ⟨mb, solve, h3, mbc, k1, k2, k, C, h₀, hC, hh, fun step s₀ g1 g2 S hg e1 e2 n hn => ?_⟩
  obtain ⟨N, s', j1, j2, -⟩ := key step 0 s₀ g1 g2 le_rfl hh.le S hg (fun i a _ _ => by rw [e1]; simp) (fun i a _ _ => by rw [e2]; simp) n hn
  have hl : mb.joints.length = 4 := by have := congrArg List.length h3; simpa using this
  have hb : 0 < mb.bodies.length := by rw [← R.wf.njoints, hl]; decide
  refine ⟨N, s', j1, ?_⟩
  have hpa : mb.paramsAt 0 = 7 := by
    have := (hq.sizes R.wf).getD_length R.wf hb
    rw [← this]
    rfl
  have := j2 0 4 hb (by rw [hpa]; decide)
  rwa [zero_add] at this

end RBDyn
