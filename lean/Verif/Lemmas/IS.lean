import Verif.Model.IS
import Verif.Lemmas.IDIM
import Verif.Lemmas.Momentum
import Verif.Lemmas.JacFull

/-! What `computeTorqueJacobianJoint` computes. -/

namespace RBDyn
variable {K : Type} [Scalar K] {mb : MultiBody K}
open scoped Mat3

/-- The recurrence of a backward sweep has a solution. -/
theorem SubRec.exists {M : Type _} [AddCommMonoid M] {par : Nat → Option Nat} (hp : ∀ i j, par i = some j → j < i) (T : Nat → M → M)
    (f : Nat → M) (n : Nat) : ∃ sub, SubRec par T f sub n := by
  let g : Nat → Nat → M := fun m => Nat.rec (fun _ => 0) (fun _ r i => f i + ∑ c ∈ Finset.range n with par c = some i, T c (r c)) m
  have gs : ∀ m i, g (m + 1) i = f i + ∑ c ∈ Finset.range n with par c = some i, T c (g m c) := fun _ _ => rfl
  have st : ∀ m m' i, i < n → n - i ≤ m → n - i ≤ m' → g m i = g m' i := by
    intro m
    induction m with
    | zero => intro m' i h1 h2; omega
    | succ m ih =>
      intro m' i h1 h2 h3
      obtain ⟨m', rfl⟩ : ∃ k, m' = k + 1 := ⟨m' - 1, by omega⟩
      rw [gs, gs]
      congr 1
      refine Finset.sum_congr rfl fun c hc => ?_
      rw [Finset.mem_filter, Finset.mem_range] at hc
      have := hp c i hc.2
      rw [ih m' c hc.1 (by omega) (by omega)]
  refine ⟨fun i => g n i, fun i hi => ?_⟩
  show g n i = f i + ∑ c ∈ Finset.range n with par c = some i, T c (g n c)
  rw [st n (n + 1) i hi (by omega) (by omega), gs]

theorem transMatMul_eq (X : PTransform K) (f : ForceVec K) : transMatMul X f = X.transMul f := by
  unfold transMatMul PTransform.transMul
  rw [Mat3.mul_mulVec, Mat3.crossMat_mulVec]

/-- An `InverseStatics` object with the sizes that belong to the robot and matrices of derivatives of `w` columns. -/
structure IS.For (mb : MultiBody K) (w : Nat) (s : IS K) : Prop where
  f : s.f.length = mb.bodies.length
  df : s.df.length = mb.bodies.length
  wide : mb.nrDof ≤ w
  dfCols : ∀ d ∈ s.df, d.cols = w
  diff : s.jointTorqueDiff.length = mb.bodies.length
  jacs : s.jacW.length = mb.bodies.length
  jac : ∀ (k : Nat) (J : Jac K), s.jacW[k]? = some J → J.Of mb k 0
  fullRows : s.fullJac.rows = 6
  fullCols : s.fullJac.cols = mb.nrDof

theorem IS.mk'_for (wf : mb.WF) (hn : ∀ (i : Nat) (b : Body K), mb.bodies[i]? = some b → mb.sBodyIndexByName b.name = .ok (i : Int))
    (junk : Nat → MotionVec K) (junkF : Nat → ForceVec K) : ∃ s, IS.mk' junk junkF mb = .ok s ∧ s.For mb mb.nrDof ∧ s.sizeSet = false := by
  unfold IS.mk'
  refine (foldlM_range_inv (IS.initStep junk mb) (fun n s => s.f.length = mb.bodies.length ∧ s.df.length = n ∧
    (∀ d ∈ s.df, d.cols = mb.nrDof) ∧ s.jointTorqueDiff.length = mb.bodies.length ∧ s.jacW.length = n ∧
    (∀ (k : Nat) (J : Jac K), s.jacW[k]? = some J → J.Of mb k 0) ∧ s.fullJac.rows = 6 ∧ s.fullJac.cols = mb.nrDof ∧ s.sizeSet = false) mb.nrBodies
    ⟨(List.range mb.nrBodies).map junkF, [], mb.joints.map fun j => ⟨j.dof, mb.nrDof, fun _ _ => 0⟩, [], ⟨6, mb.nrDof, fun _ _ => 0⟩, false⟩
    ⟨by simp [MultiBody.nrBodies], rfl, by simp, by simp [wf.njoints], rfl, by simp, rfl, rfl, rfl⟩ ?_).elim ?_
  · rintro i s hi ⟨h1, h2, h3, h4, h5, h6, h7, h8, h9⟩
    have hi : i < mb.bodies.length := hi
    have hb : mb.bodies[i]? = some mb.bodies[i] := List.getElem?_eq_getElem hi
    obtain ⟨J, e, hJ⟩ := Jac.mk'_of wf junk (hn i _ hb) hi 0
    refine ⟨{ s with jacW := s.jacW ++ [J], df := s.df ++ [⟨mb.nrDof, fun _ => 0⟩] }, ?_, h1, by simp [h2], ?_, h4, by simp [h5], ?_, h7, h8, h9⟩
    · simp only [IS.initStep, rd_ok hi, Res.bind_ok, e, Res.pure_eq]
    · intro d hd
      rcases List.mem_append.1 hd with hd | hd
      · exact h3 d hd
      · rw [List.mem_singleton.1 hd]
    · intro k J' hJ'
      rcases getElem?_snoc hJ' with hk | ⟨rfl, rfl⟩
      · exact h6 k J' hk
      · rw [h5]; exact hJ
  · rintro s ⟨e, h1, h2, h3, h4, h5, h6, h7, h8, h9⟩
    exact ⟨s, e, ⟨h1, h2, le_rfl, h3, h4, h5, h6, h7, h8⟩, h9⟩

/-- The matrices of derivatives of the external forces have the right size: one per body, either empty or with `w` columns. -/
structure ForceJacs (mb : MultiBody K) (w : Nat) (jac : List (FMat K)) : Prop where
  length : jac.length = mb.bodies.length
  cols : ∀ e ∈ jac, e.cols = 0 ∨ e.cols = w

theorem mem_of_get {α : Type} {l : List α} {k : Nat} {x : α} (h : l[k]? = some x) : x ∈ l := List.mem_of_getElem? h

theorem IS.For.setJacobianSize {w₀ w : Nat} {s : IS K} (h : s.For mb w₀) (hw : w₀ ≤ w) {mbc : MBC K}
    (hS : mbc.motionSubspace.length = mb.bodies.length) {jac : List (FMat K)} (hj : ForceJacs mb w jac)
    (he : (∃ e ∈ jac, e.cols = w) ∨ w₀ = w) : ∃ s', s.setJacobianSize mb mbc jac = .ok s' ∧ s'.For mb w := by
  unfold IS.setJacobianSize
  refine (foldlM_range_inv (fun (w : Nat) (i : Nat) => (do
    let e ← rd jac i
    return if w < e.cols then e.cols else w : Res Nat)) (fun n x => x ≤ w ∧ ∀ i e, i < n → jac[i]? = some e → e.cols ≤ x)
      mb.bodies.length 0 ⟨Nat.zero_le _, fun i e h => by omega⟩ ?_).elim ?_
  · rintro i x hi ⟨hx, hall⟩
    have hi' : i < jac.length := by rw [hj.length]; exact hi
    refine ⟨if x < jac[i].cols then jac[i].cols else x, by simp only [rd_ok hi', Res.bind_ok, Res.pure_eq], ?_, ?_⟩
    · have := hj.cols _ (List.getElem_mem hi')
      split <;> omega
    · intro k e hk hke
      by_cases hki : k = i
      · subst hki
        rw [List.getElem?_eq_getElem hi'] at hke
        cases hke
        split <;> omega
      · have := hall k e (by omega) hke
        split <;> omega
  · rintro x ⟨e, hx, hall⟩
    rw [e, Res.bind_ok]
    have hxw : (if w₀ < x then x else w₀) = w := by
      rcases he with ⟨e, hm, hc⟩ | rfl
      · obtain ⟨i, hi, rfl⟩ := List.mem_iff_getElem.1 hm
        have := hall i _ (by rw [← hj.length]; exact hi) (List.getElem?_eq_getElem hi)
        split <;> omega
      · split <;> omega
    refine (foldlM_range_inv (IS.sizeStep mbc x) (fun n s => s.f.length = mb.bodies.length ∧
      s.df.length = mb.bodies.length ∧ (∀ i d, s.df[i]? = some d → d.cols = if i < n then w else w₀) ∧
      s.jointTorqueDiff.length = mb.bodies.length ∧ s.jacW.length = mb.bodies.length ∧
      (∀ (k : Nat) (J : Jac K), s.jacW[k]? = some J → J.Of mb k 0) ∧ s.fullJac.rows = 6 ∧ s.fullJac.cols = mb.nrDof) mb.bodies.length s
      ⟨h.f, h.df, fun i d hd => by rw [if_neg (by omega)]; exact h.dfCols d (mem_of_get hd), h.diff, h.jacs, h.jac, h.fullRows, h.fullCols⟩
      ?_).elim ?_
    · rintro i s hi ⟨h1, h2, h3, h4, h5, h6, h7, h8⟩
      have b1 : i < s.df.length := by rw [h2]; exact hi
      have b2 : i < mbc.motionSubspace.length := by rw [hS]; exact hi
      have b3 : i < s.jointTorqueDiff.length := by rw [h4]; exact hi
      have hc : s.df[i].cols = w₀ := by
        have := h3 i _ (List.getElem?_eq_getElem b1)
        rwa [if_neg (lt_irrefl _)] at this
      refine ⟨{ s with
        df := s.df.set i ⟨w, fun _ => 0⟩
        jointTorqueDiff := s.jointTorqueDiff.set i ⟨mbc.motionSubspace[i].length, w, fun _ _ => 0⟩ }, ?_, h1, by simp [h2], ?_,
        by simp [h4], h5, h6, h7, h8⟩
      · simp only [IS.sizeStep, rd_ok b1, rd_ok b2, hc, hxw, wr_ok b1, wr_ok b3, Res.bind_ok, Res.pure_eq]
      · intro k d hd
        dsimp only at hd
        rw [List.getElem?_set] at hd
        by_cases hki : i = k
        · subst hki
          rw [if_pos rfl, if_pos b1] at hd
          cases hd
          rw [if_pos (by omega)]
        · rw [if_neg hki] at hd
          rw [h3 k d hd]
          by_cases hlt : k < i
          · rw [if_pos hlt, if_pos (by omega)]
          · rw [if_neg hlt, if_neg (by omega)]
    · rintro s' ⟨e', h1, h2, h3, h4, h5, h6, h7, h8⟩
      rw [e', Res.bind_ok]
      refine ⟨_, rfl, ⟨h1, h2, h.wide.trans hw, fun d hd => ?_, h4, h5, h6, h7, h8⟩⟩
      obtain ⟨i, hi, rfl⟩ := List.mem_iff_getElem.1 hd
      have := h3 i _ (List.getElem?_eq_getElem hi)
      rwa [if_pos (by rw [← h2]; exact hi)] at this

/-- Column `c` of the full Jacobian of the origin of body `k`. -/
def MultiBody.fullAt (mb : MultiBody K) (q : List (List K)) (k c : Nat) : MotionVec K :=
  let path := (pathUp mb.par k).reverse
  let m := DMat.ofCols (mb.jacCols q (.ofTrans (PTransform.ofTrans 0 * mb.posAt q k).r) path (path.map fun _ => 1))
  (⟨6, mb.nrDof, fun r => scat (mb.dofIdx path) (m.get r)⟩ : DMat K).motionCol c

/-- Column `c` of `df_[k]` after the first loop. -/
def MultiBody.isLoc (mb : MultiBody K) (q : List (List K)) (gravity : Vec3 K) (fext : Nat → ForceVec K) (jac : List (FMat K)) (k c : Nat) :
    ForceVec K :=
  (if c < mb.nrDof then isLocal (mb.inertiaAt k) (mb.posAt q k) gravity (fext k) (mb.fullAt q k c) else 0) +
    ((jac[k]?).map fun e => if 0 < e.cols then (mb.posAt q k).dualMul (e.col c) else 0).getD 0

/-- The force on body `k` in inverse statics. -/
def MultiBody.isNet (mb : MultiBody K) (q : List (List K)) (gravity : Vec3 K) (fext : Nat → ForceVec K) (k : Nat) : ForceVec K :=
  (mb.inertiaAt k).mulMotion ((mb.posAt q k).mulMotion ⟨0, gravity⟩) - (mb.posAt q k).dualMul (fext k)

theorem IS.For.jacLoop {w : Nat} (wf : mb.WF) {mbc : MBC K} (sz : mbc.Sized mb) (hv : mbc.PosReady mb) {s : IS K}
    (h : s.For mb w) {jac : List (FMat K)} (hj : ForceJacs mb w jac) :
    ∃ s', (List.range mb.bodies.length).foldlM (IS.jacStep mb jac) (s, mbc) = .ok (s',
        { mbc with bodyAccB := (List.range mb.bodies.length).map fun k => (mb.posAt mbc.q k).mulMotion ⟨0, mbc.gravity⟩ }) ∧ s'.For mb w ∧
      Filled s'.f (fun i => some (mb.isNet mbc.q mbc.gravity mbc.forceAt i)) mb.bodies.length mb.bodies.length ∧
      Filled (s'.df.map (·.col)) (fun i => some (mb.isLoc mbc.q mbc.gravity mbc.forceAt jac i)) mb.bodies.length mb.bodies.length := by
  have hW : Filled mbc.bodyPosW (fun i => some (mb.posAt mbc.q i)) mb.bodies.length mb.bodies.length := by
    rw [hv.bodyPosW]; exact .of_range_map
  refine (foldlM_range_inv (IS.jacStep mb jac) (fun k s =>
    s.1.For mb w ∧ Filled s.1.f (fun i => some (mb.isNet mbc.q mbc.gravity mbc.forceAt i)) k mb.bodies.length ∧
    Filled (s.1.df.map (·.col)) (fun i => some (mb.isLoc mbc.q mbc.gravity mbc.forceAt jac i)) k mb.bodies.length ∧
    Filled s.2.bodyAccB (fun i => some ((mb.posAt mbc.q i).mulMotion ⟨0, mbc.gravity⟩)) k mb.bodies.length ∧
    s.2 = { mbc with bodyAccB := s.2.bodyAccB }) mb.bodies.length (s, mbc)
    ⟨h, .zero h.f, .zero (by simp [h.df]), .zero sz.bodyAccB, rfl⟩ ?_).elim ?_
  · rintro i ⟨s, m⟩ hi ⟨hs, f1, f2, f3, e⟩
    dsimp only at hs f1 f2 f3 e
    have hWs : rd m.bodyPosW i = .ok (mb.posAt mbc.q i) := by rw [e]; exact hW.rd hi
    have hfs : rd m.force i = .ok (mbc.forceAt i) := by
      have : i < mbc.force.length := by rw [sz.force]; exact hi
      rw [e, rd_ok this]; simp [MBC.forceAt, this]
    have hg : m.gravity = mbc.gravity := by rw [e]
    have hvm : m.PosReady mb := by
      rw [e]; exact { hv with }
    have hqm : m.q = mbc.q := by rw [e]
    obtain ⟨b, hbd, hI⟩ := mb.rd_body hi
    have b1 : i < s.df.length := by rw [hs.df]; exact hi
    have b2 : i < s.f.length := by rw [hs.f]; exact hi
    have b3 : i < m.bodyAccB.length := by rw [f3.1]; exact hi
    have b4 : i < s.jacW.length := by rw [hs.jacs]; exact hi
    have b5 : i < jac.length := by rw [hj.length]; exact hi
    have hJ := hs.jac i _ (List.getElem?_eq_getElem b4)
    have eJ := hJ.jacobian_eq wf hvm
    have hJ' := hJ.with_jac (jacCols_length m.q (.ofTrans (PTransform.ofTrans 0 * mb.posAt m.q i).r) s.jacW[i].path s.jacW[i].sign)
    generalize hJn : ({ s.jacW[i] with
      jac := mb.jacCols m.q (.ofTrans (PTransform.ofTrans 0 * mb.posAt m.q i).r) s.jacW[i].path s.jacW[i].sign } : Jac K) = J at eJ hJ'
    have hJc : J.jac = mb.jacCols mbc.q (.ofTrans (PTransform.ofTrans 0 * mb.posAt mbc.q i).r) (pathUp mb.par i).reverse
        ((pathUp mb.par i).reverse.map fun _ => 1) := by
      rw [← hJn]
      dsimp only
      rw [hqm, hJ.sign_eq, hJ.path_eq]
    obtain ⟨full, ef, fr, fc, hget, -⟩ := J.fullJacobian_eq wf hJ'.path (jac := DMat.ofCols J.jac) (res := s.fullJac) hs.fullCols.ge
      hs.fullRows.ge (by show _ ≤ J.jac.length; rw [hJ'.jac])
    have hcol : ∀ c, c < mb.nrDof → full.motionCol c = mb.fullAt mbc.q i c := by
      intro c hc
      unfold MultiBody.fullAt DMat.motionCol
      dsimp only
      rw [hget 0 c (by show 0 < 6; omega) hc, hget 1 c (by show 1 < 6; omega) hc, hget 2 c (by show 2 < 6; omega) hc,
        hget 3 c (by show 3 < 6; omega) hc, hget 4 c (by show 4 < 6; omega) hc, hget 5 c (by show 5 < 6; omega) hc, hJ'.path_eq, hJc]
    have hdc : s.df[i].cols = w := hs.dfCols _ (List.getElem_mem b1)
    have hfc : full.cols = mb.nrDof := fc.trans hs.fullCols
    have hd1 : (if full.cols ≤ s.df[i].cols then .ok (⟨s.df[i].cols, fun c => if c < full.cols then
        isLocal b.inertia (mb.posAt mbc.q i) m.gravity (mbc.forceAt i) (full.motionCol c) else 0⟩ : FMat K) else .error .ub : Res (FMat K)) =
        .ok ⟨w, fun c => if c < mb.nrDof then
          isLocal (mb.inertiaAt i) (mb.posAt mbc.q i) mbc.gravity (mbc.forceAt i) (mb.fullAt mbc.q i c) else 0⟩ := by
      rw [hdc, hfc, if_pos h.wide, hI, hg]
      congr 2
      funext c
      split
      · rename_i hc; rw [hcol c hc]
      · rfl
    have hd2 : ∀ d : FMat K, d.cols = w → (if 0 < jac[i].cols then
        (if jac[i].cols = d.cols then .ok ⟨d.cols, fun c => d.col c + (mb.posAt mbc.q i).dualMul (jac[i].col c)⟩ else .error .ub) else .ok d
          : Res (FMat K)) =
        .ok ⟨w, fun c => d.col c + ((jac[i]?).map fun e => if 0 < e.cols then (mb.posAt mbc.q i).dualMul (e.col c) else 0).getD 0⟩ := by
      intro d hd
      rw [List.getElem?_eq_getElem b5]
      simp only [Option.map_some, Option.getD_some]
      rcases hj.cols _ (List.getElem_mem b5) with h0 | h0
      · rw [h0]
        simp only [lt_irrefl, if_false, add_zero]
        rw [← hd]
      · by_cases hz : 0 < jac[i].cols
        · rw [if_pos hz, h0, hd, if_pos rfl]
          simp only [← h0, if_pos hz]
        · simp only [if_neg hz, add_zero]
          rw [← hd]
    refine ⟨({ s with
        f := s.f.set i (mb.isNet mbc.q mbc.gravity mbc.forceAt i)
        df := s.df.set i ⟨w, mb.isLoc mbc.q mbc.gravity mbc.forceAt jac i⟩
        jacW := s.jacW.set i J
        fullJac := full },
      { m with bodyAccB := m.bodyAccB.set i ((mb.posAt mbc.q i).mulMotion ⟨0, mbc.gravity⟩) }), ?_, ?_, ?_, ?_, ?_, ?_⟩
    · unfold IS.jacStep
      simp only [rd_ok b1, rd_ok b4, eJ, Res.bind_ok, ef, hWs, wr_ok b3, hfs, hbd, wr_ok b2, hd1, rd_ok b5]
      rw [hd2 ⟨w, _⟩ rfl]
      simp only [Res.bind_ok, wr_ok b1, wr_ok b4, Res.pure_eq, hI, hg]
      rfl
    · exact
        { f := by simp [hs.f]
          df := by simp [hs.df]
          wide := hs.wide
          dfCols := fun d hd => by
            rcases List.mem_or_eq_of_mem_set hd with hd | rfl
            · exact hs.dfCols d hd
            · rfl
          diff := hs.diff
          jacs := by simp [hs.jacs]
          jac := fun k J' hk => by
            dsimp only at hk
            rw [List.getElem?_set] at hk
            split at hk
            · rename_i hik
              subst hik
              cases hk
              exact hJ'
            · exact hs.jac k J' hk
          fullRows := fr.trans hs.fullRows
          fullCols := hfc }
    · exact f1.set hi rfl
    · dsimp only
      rw [List.map_set]
      exact f2.set hi rfl
    · exact f3.set hi rfl
    · dsimp only; rw [e]
  · rintro ⟨s', m⟩ ⟨e, hs, f1, f2, f3, em⟩
    dsimp only at hs f1 f2 f3 em
    refine ⟨s', ?_, hs, f1, f2⟩
    rw [e, em, ← f3.range_map]

/-- What the second loop adds to `df_` of the predecessor. -/
def MultiBody.isUp (mb : MultiBody K) (q : List (List K)) (F : Nat → ForceVec K) (i : Nat) (D : Nat → ForceVec K) (c : Nat) : ForceVec K :=
  (mb.ptsAt q i).transMul (D c) -
    if mb.dofPosAt i ≤ c ∧ c < mb.dofPosAt i + mb.dofAt i then
      (mb.XtAt i).transMul (mjMul (mb.poseAt q i) (F i) ((mb.SAt i).getD (c - mb.dofPosAt i) 0)) else 0

theorem IS.For.backLoop {w : Nat} (wf : mb.WF) {mbc : MBC K} (hv : mbc.PosReady mb)
    (hc : mbc.jointConfig = (List.range mb.bodies.length).map (mb.poseAt mbc.q)) {s : IS K}
    (h : s.For mb w) {f F : Nat → ForceVec K} {loc D : Nat → Nat → ForceVec K}
    (hf : Filled s.f (fun i => some (f i)) mb.bodies.length mb.bodies.length)
    (hF : SubRec mb.par (fun c => (mb.ptsAt mbc.q c).transMul) f F mb.bodies.length)
    (hd : Filled (s.df.map (·.col)) (fun i => some (loc i)) mb.bodies.length mb.bodies.length)
    (hD : SubRec mb.par (mb.isUp mbc.q F) loc D mb.bodies.length) :
    ∃ s', (List.range mb.joints.length).reverse.foldlM (IS.jacBackStep mb mbc) s = .ok s' ∧ s'.For mb w ∧
      s'.f = (List.range mb.bodies.length).map F ∧
      s'.jointTorqueDiff = (List.range mb.bodies.length).map fun i =>
        ⟨mb.dofAt i, w, fun r c => ((mb.SAt i).getD r 0).dot (D i c)⟩ := by
  have hX : Filled mbc.parentToSon (fun i => some (mb.ptsAt mbc.q i)) mb.bodies.length mb.bodies.length := by
    rw [hv.parentToSon]; exact .of_range_map
  have hS : Filled mbc.motionSubspace (fun i => some (mb.SAt i)) mb.bodies.length mb.bodies.length := by
    rw [hv.motionSubspace]; exact .of_range_map
  have hC : Filled mbc.jointConfig (fun i => some (mb.poseAt mbc.q i)) mb.bodies.length mb.bodies.length := by
    rw [hc]; exact .of_range_map
  rw [wf.njoints]
  refine (foldlM_range_reverse_inv (IS.jacBackStep mb mbc) (fun k s => s.For mb w ∧
    Accum mb.par (fun c => (mb.ptsAt mbc.q c).transMul) f F s.f k mb.bodies.length ∧
    Accum mb.par (mb.isUp mbc.q F) loc D (s.df.map (·.col)) k mb.bodies.length ∧
    FilledFrom s.jointTorqueDiff (fun i => ⟨mb.dofAt i, w, fun r c => ((mb.SAt i).getD r 0).dot (D i c)⟩) k mb.bodies.length)
    mb.bodies.length s ⟨h, .start hf, .start hd, .start h.diff⟩ ?_).elim ?_
  · rintro i s hi ⟨hs, f1, f2, f3⟩
    obtain ⟨j, hj, hdof⟩ := wf.rd_joint hi
    have hF' : rd s.f i = .ok (F i) := rd_of_getElem? (f1.get wf.par_lt hF hi)
    have b1 : i < s.df.length := by rw [hs.df]; exact hi
    have b3 : i < s.jointTorqueDiff.length := by rw [hs.diff]; exact hi
    have hDi : s.df[i].col = D i := by
      have := f2.get wf.par_lt hD hi
      rw [List.getElem?_map, List.getElem?_eq_getElem b1] at this
      exact Option.some.inj this
    have hdc : s.df[i].cols = w := hs.dfCols _ (List.getElem_mem b1)
    have hdi : rd s.df i = .ok ⟨w, D i⟩ := by rw [rd_ok b1, ← hDi, ← hdc]
    have hSl := wf.SAt_length hi
    have f3' := f3.set (a := ⟨mb.dofAt i, w, fun r c => ((mb.SAt i).getD r 0).dot (D i c)⟩) hi rfl
    obtain ⟨p, hpr, ⟨rfl, hpar⟩ | ⟨k, rfl, hpar, hk⟩⟩ := wf.pred_cases hi
    · refine ⟨{ s with
        jointTorqueDiff := s.jointTorqueDiff.set i ⟨mb.dofAt i, w, fun r c => ((mb.SAt i).getD r 0).dot (D i c)⟩ }, ?_,
        { hs with diff := by simp [hs.diff] }, f1.skip hpar, f2.skip hpar, f3'⟩
      unfold IS.jacBackStep
      simp only [hS.rd hi, hdi, wr_ok b3, hpr, Res.bind_ok, hSl, ne_eq, not_true_eq_false, if_false, Res.pure_eq]
    · have hne : ((k : Int) ≠ -1) := by omega
      have bk : k < s.f.length := by rw [f1.1]; omega
      have bd : k < s.df.length := by rw [hs.df]; omega
      have hkc : s.df[k].cols = w := hs.dfCols _ (List.getElem_mem bd)
      have hle := (wf.dofPosAt_add_le hi).trans h.wide
      refine ⟨{ s with
        f := s.f.set k (s.f[k] + (mb.ptsAt mbc.q i).transMul (F i))
        df := s.df.set k ⟨w, s.df[k].col + mb.isUp mbc.q F i (D i)⟩
        jointTorqueDiff := s.jointTorqueDiff.set i ⟨mb.dofAt i, w, fun r c => ((mb.SAt i).getD r 0).dot (D i c)⟩ }, ?_, ?_, ?_, ?_, f3'⟩
      · unfold IS.jacBackStep
        simp only [hS.rd hi, hdi, wr_ok b3, hpr, Res.bind_ok, hSl, ne_eq, hne, not_false_eq_true, if_true, hX.rd hi, hF', rdI_ofNat,
          wrI_ofNat, rd_ok bk, wr_ok bk, rd_ok bd, wr_ok bd, hC.rd hi, wf.rd_Xt hi, hj, wf.rd_posDof' hi, hkc,
          Res.pure_eq]
        simp only [hle, hdof, true_and, and_true, if_true, Res.bind_ok, wr_ok bd, Except.ok.injEq, IS.mk.injEq, and_true, true_and]
        congr 2
        funext c
        simp only [Pi.add_apply, MultiBody.isUp, transMatMul_eq, hdof, add_sub_assoc]
      · exact
          { hs with
            f := by simp [hs.f]
            df := by simp [hs.df]
            dfCols := fun d hd => by
              rcases List.mem_or_eq_of_mem_set hd with hd | rfl
              · exact hs.dfCols d hd
              · rfl
            diff := by simp [hs.diff] }
      · exact f1.step hi hpar (by omega) (List.getElem?_eq_getElem bk)
      · dsimp only
        rw [List.map_set]
        exact f2.step hi hpar (by omega) (by rw [List.getElem?_map, List.getElem?_eq_getElem bd]; rfl)
  · rintro s' ⟨e, hs, f1, -, f3⟩
    exact ⟨s', e, hs, f1.range_map wf.par_lt hF, f3.range_map⟩

/-- What `computeTorqueJacobianJoint` returns. -/
theorem IS.computeTorqueJacobian_eq {w : Nat} (wf : mb.WF) (hr : mb.Rigid) {mbc : MBC K} (sz : mbc.Sized mb) (hq : ValidQ mb mbc.q)
    (hv : mbc.PosReady mb) (hc : mbc.jointConfig = (List.range mb.bodies.length).map (mb.poseAt mbc.q)) {s : IS K}
    {jac : List (FMat K)} (hj : ForceJacs mb w jac)
    (h : s.For mb w ∨ (s.For mb mb.nrDof ∧ s.sizeSet = false ∧ mb.nrDof ≤ w ∧ ∃ e ∈ jac, e.cols = w)) {D : Nat → Nat → ForceVec K}
    (hD : SubRec mb.par (mb.isUp mbc.q (mb.wrenchAt mbc.q (mb.isNet mbc.q mbc.gravity mbc.forceAt)))
      (mb.isLoc mbc.q mbc.gravity mbc.forceAt jac) D mb.bodies.length) :
    ∃ s', s.computeTorqueJacobian mb mbc jac = .ok (s',
        { mbc with bodyAccB := (List.range mb.bodies.length).map fun k => (mb.posAt mbc.q k).mulMotion ⟨0, mbc.gravity⟩ }) ∧ s'.For mb w ∧
      s'.f = (List.range mb.bodies.length).map (mb.wrenchAt mbc.q (mb.isNet mbc.q mbc.gravity mbc.forceAt)) ∧
      s'.jointTorqueDiff = (List.range mb.bodies.length).map fun i =>
        ⟨mb.dofAt i, w, fun r c => ((mb.SAt i).getD r 0).dot (D i c)⟩ := by
  have hS : mbc.motionSubspace.length = mb.bodies.length := by rw [hv.motionSubspace]; simp
  have h0 : ∃ s0, (if !s.sizeSet then s.setJacobianSize mb mbc jac else pure s : Res (IS K)) = .ok s0 ∧ s0.For mb w := by
    cases hb : s.sizeSet
    · rcases h with h | ⟨h, -, hw, he⟩
      · exact h.setJacobianSize le_rfl hS hj (.inr rfl)
      · exact h.setJacobianSize hw hS hj (.inl he)
    · rcases h with h | ⟨-, h, -⟩
      · exact ⟨s, rfl, h⟩
      · rw [hb] at h; cases h
  obtain ⟨s0, e0, h0⟩ := h0
  obtain ⟨s1, e1, h1, f1, f2⟩ := h0.jacLoop wf sz hv hj
  generalize hm : ({ mbc with
    bodyAccB := (List.range mb.bodies.length).map fun k => (mb.posAt mbc.q k).mulMotion ⟨0, mbc.gravity⟩ } : MBC K) = m at e1 ⊢
  have hqm : m.q = mbc.q := by rw [← hm]
  have hvm : m.PosReady mb := by rw [← hm]; exact { hv with }
  obtain ⟨s2, e2, h2, f3, f4⟩ := h1.backLoop wf hvm (by rw [← hm]; exact hc) f1 (by rw [hqm]; exact wf.wrenchAt_rec hr hq _) f2
    (by rw [hqm]; exact hD)
  refine ⟨s2, ?_, h2, f3, f4⟩
  unfold IS.computeTorqueJacobian
  rw [if_neg (by rw [hj.length]; exact fun h => h rfl)]
  cases hb : s.sizeSet
  · rw [hb] at e0
    replace e0 : s.setJacobianSize mb mbc jac = .ok s0 := e0
    simp only [Bool.not_false, if_true, e0, Res.bind_ok, e1, e2, Res.pure_eq]
  · rw [hb] at e0
    cases e0
    simp only [Bool.not_true, Bool.false_eq_true, if_false, Res.bind_ok, e1, e2, Res.pure_eq]

end RBDyn
