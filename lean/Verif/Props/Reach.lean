import Verif.Props.IK
import Verif.Lemmas.JacCols
import Verif.Lemmas.GraphLock

/-! C86: inverse kinematics reaches reachable targets when the path consists of sliding joints; in general it can get stuck. -/

namespace RBDyn
open scoped Mat3
variable {K : Type} [Scalar K] {mb : MultiBody K}

/-- All joints between the root and body `N` are sliding joints or fixed. -/
def MultiBody.SlidePath (mb : MultiBody K) (N : Nat) : Prop :=
  ∀ i ∈ pathUp mb.par N, ∀ j, mb.joints[i]? = some j → j.type = .Prism ∨ j.type = .Fixed

omit [Scalar K] in
theorem MultiBody.SlidePath.plain {N : Nat} (h : mb.SlidePath N) : mb.PlainPath N := fun i hi j e => by
  rcases h i hi j e with t | t <;> exact ⟨by rw [t]; decide, by rw [t]; decide⟩

theorem MultiBody.SlidePath.parent (wf : mb.WF) {N p : Nat} (hp : mb.par N = some p) (h : mb.SlidePath N) : mb.SlidePath p := fun i hi j e =>
  h i (by rw [pathUp_some hp (wf.par_lt _ _ hp)]; exact List.mem_cons_of_mem _ hi) j e

/-- A sliding joint: no rotation, and its displacement is its motion subspace times its parameters. -/
theorem slide_joint {j : Joint K} (h : j.Built) (ht : j.type = .Prism ∨ j.type = .Fixed) :
    (∀ c ∈ j.S, c.ang = 0) ∧ ∀ x : List K, x.length = j.params → j.pose x = .ok ⟨1, (applyCols j.S x).lin⟩ := by
  obtain ⟨t, a, f, n, rfl | ⟨mn, m, o, rfl⟩⟩ := h.exists_mk <;> rcases ht with e | e <;>
    (obtain rfl : t = _ := e) <;> refine ⟨?_, fun x hx => ?_⟩
  all_goals first
    | (intro c hc
       simp [Joint.mk', Joint.makeMimic, Joint.mkS] at hc
       try (rw [hc]; split <;> simp))
    | (obtain ⟨y, rfl⟩ := List.length_eq_one_iff.1 hx
       refine (Joint.pose_prism a f n y).trans ?_
       congr 2
       cases f <;> simp [applyCols, Joint.mk', Joint.makeMimic, Joint.mkS, Joint.sgn])
    | (obtain rfl := List.length_eq_zero_iff.1 hx
       exact Joint.pose_fixed (a := a) (f := f) (n := n) (q := []))

theorem applyCols_ang {S : List (MotionVec K)} (h : ∀ c ∈ S, c.ang = 0) (x : List K) : (applyCols S x).ang = 0 := by
  induction S generalizing x with
  | nil => simp [applyCols]
  | cons c S ih =>
    cases x with
    | nil => simp [applyCols]
    | cons a x =>
      have := ih (fun c hc => h c (by simp [hc])) x
      simp only [applyCols, List.zipWith_cons_cons, List.sum_cons] at this ⊢
      show (a • c).ang + _ = 0
      rw [show (a • c).ang = a • c.ang from rfl, h c (by simp), this]
      simp

theorem applyCols_scaled (S : List (MotionVec K)) (s : K) (x : List K) : applyCols S (x.map fun y => s * y) = s • applyCols S x := by
  induction S generalizing x with
  | nil => simp [applyCols]
  | cons c S ih =>
    cases x with
    | nil => simp [applyCols]
    | cons a x =>
      have := ih x
      simp only [applyCols, List.map_cons, List.zipWith_cons_cons, List.sum_cons] at this ⊢
      rw [this, smul_add, smul_smul]

theorem applyCols_diff (S : List (MotionVec K)) : ∀ (x y : List K), x.length = y.length →
    applyCols S (List.zipWith (fun a b => a - b) x y) = applyCols S x - applyCols S y := by
  induction S with
  | nil => intro x y _; simp [applyCols]
  | cons c S ih =>
    intro x y h
    match x, y, h with
    | [], [], _ => simp [applyCols]
    | a :: x, b :: y, h =>
      have := ih x y (by simpa using h)
      simp only [applyCols, List.zipWith_cons_cons, List.sum_cons] at this ⊢
      rw [this, sub_smul]
      abel

/-- The displacement of the joints of the path, other joints at rest. -/
def MultiBody.displacement (mb : MultiBody K) (N : Nat) (q q' : List (List K)) : List (List K) :=
  (List.range mb.bodies.length).map fun i =>
    if i ∈ pathUp mb.par N then List.zipWith (fun a b => a - b) ((q'[i]?).getD []) ((q[i]?).getD []) else List.replicate (mb.dofAt i) 0

theorem ValidQ.param_length (wf : mb.WF) {q : List (List K)} (hq : ValidQ mb q) {N : Nat} (hpl : mb.PlainPath N) {i : Nat}
    (hi : i ∈ pathUp mb.par N) (hlt : i < mb.bodies.length) : ∃ j x, mb.joints[i]? = some j ∧ q[i]? = some x ∧ x.length = j.params ∧
      x.length = mb.dofAt i := by
  obtain ⟨j, e, -⟩ := wf.joint_get hlt
  obtain ⟨h1, h2⟩ := hpl i hi j e
  have hb := wf.built j (List.mem_of_getElem? e)
  have hl := hq.length_eq
  have hlt' : i < q.length := by rw [← hl]; exact (List.getElem?_eq_some_iff.1 e).1
  have hv := (List.forall₂_iff_get.1 hq).2 i (List.getElem?_eq_some_iff.1 e).1 hlt'
  have ej : mb.joints[i]'(List.getElem?_eq_some_iff.1 e).1 = j := (List.getElem?_eq_some_iff.1 e).2
  simp only [List.get_eq_getElem, ej] at hv
  have hx : (q[i]).length = j.params := by
    rw [hv.1]
    obtain ⟨t, a, f, n, rfl | ⟨mn, m, o, rfl⟩⟩ := hb.exists_mk <;> rfl
  refine ⟨j, q[i], e, List.getElem?_eq_getElem hlt', hx, ?_⟩
  rw [hx, (hb.plain h1 h2).1]
  simp [MultiBody.dofAt, e]

theorem ValidQ.sizes (wf : mb.WF) {q : List (List K)} (hq : ValidQ mb q) : SizedQ mb q := by
  refine List.ext_getElem (by simpa using hq.length_eq.symm) fun i h1 h2 => ?_
  rw [List.length_map] at h1 h2
  have hv := ((List.forall₂_iff_get.1 hq).2 i h2 h1).1
  rw [List.getElem_map, List.getElem_map]
  refine hv.trans ?_
  obtain ⟨t, a, f, n, e | ⟨mn, m, o, e⟩⟩ := (wf.built _ (List.getElem_mem h2)).exists_mk <;> simp only [List.get_eq_getElem, e] <;> rfl

theorem displacement_sized (wf : mb.WF) {N : Nat} (hpl : mb.PlainPath N) {q q' : List (List K)} (hq : ValidQ mb q) (hq' : ValidQ mb q') :
    SizedDof mb (mb.displacement N q q') := by
  unfold SizedDof MultiBody.displacement
  rw [List.map_map]
  refine List.ext_getElem? fun i => ?_
  rcases Nat.lt_or_ge i mb.bodies.length with hi | hi
  · obtain ⟨j, e, -⟩ := wf.joint_get hi
    rw [range_map_getElem? hi, List.getElem?_map, e]
    simp only [Function.comp_apply, Option.map_some, Option.some.injEq]
    split
    · rename_i h
      obtain ⟨_, x, -, h1, -, h2⟩ := hq.param_length wf hpl h hi
      obtain ⟨_, y, -, h3, -, h4⟩ := hq'.param_length wf hpl h hi
      rw [h1, h3, Option.getD_some, Option.getD_some, List.length_zipWith, h2, h4]
      simp [MultiBody.dofAt, e]
    · simp [MultiBody.dofAt, e]
  · rw [List.getElem?_eq_none (by simpa using hi), List.getElem?_eq_none (by rw [List.length_map, wf.njoints]; exact hi)]

theorem displacement_pathVec (wf : mb.WF) {N : Nat} (hN : N < mb.bodies.length) (hpl : mb.PlainPath N) {q q' : List (List K)}
    (hq : ValidQ mb q) (hq' : ValidQ mb q') : ∀ {path : List Nat}, (∀ i ∈ path, i ∈ pathUp mb.par N) →
    pathVec path (mb.displacement N q q') = List.zipWith (fun a b => a - b) (pathVec path q') (pathVec path q)
  | [], _ => rfl
  | i :: path, h => by
    have hi := h i (by simp)
    have hlt := wf.mem_pathUp_lt hN hi
    have ec : ∀ v : List (List K), pathVec (i :: path) v = (v[i]?).getD [] ++ pathVec path v := fun v => rfl
    obtain ⟨_, x, -, h1, -, h2⟩ := hq.param_length wf hpl hi hlt
    obtain ⟨_, y, -, h3, -, h4⟩ := hq'.param_length wf hpl hi hlt
    rw [ec, ec, ec, displacement_pathVec wf hN hpl hq hq' (fun k hk => h k (by simp [hk])), List.zipWith_append (by rw [h1, h3]; exact h4.trans h2.symm)]
    congr 1
    rw [MultiBody.displacement, range_map_getElem? hlt, Option.getD_some, if_pos hi]

/-- What one joint of the path does. -/
theorem slide_at (wf : mb.WF) {N : Nat} (hN : N < mb.bodies.length) (hsl : mb.SlidePath N) {q q' : List (List K)}
    (hq : ValidQ mb q) (hq' : ValidQ mb q') {i : Nat} (hi : i ∈ pathUp mb.par N) :
    (mb.poseAt q i).E = 1 ∧ (mb.jointMotion (mb.displacement N q q') i).ang = 0 ∧
      (mb.poseAt q' i).r = (mb.poseAt q i).r + (mb.jointMotion (mb.displacement N q q') i).lin := by
  have hlt := wf.mem_pathUp_lt hN hi
  obtain ⟨j, x, e, h1, h2, -⟩ := hq.param_length wf hsl.plain hi hlt
  obtain ⟨j', y, e', h3, h4, -⟩ := hq'.param_length wf hsl.plain hi hlt
  rw [e] at e'
  cases e'
  obtain ⟨k1, k2⟩ := slide_joint (wf.built j (List.mem_of_getElem? e)) (hsl i hi j e)
  have p1 : mb.poseAt q i = ⟨1, (applyCols j.S x).lin⟩ := by simp [MultiBody.poseAt, e, h1, k2 x h2, Except.toOption]
  have p2 : mb.poseAt q' i = ⟨1, (applyCols j.S y).lin⟩ := by simp [MultiBody.poseAt, e, h3, k2 y h4, Except.toOption]
  have p3 : mb.jointMotion (mb.displacement N q q') i = applyCols j.S y - applyCols j.S x := by
    rw [MultiBody.jointMotion, MultiBody.displacement, range_map_getElem? hlt, Option.getD_some, if_pos hi, h1, h3, MultiBody.SAt, e]
    exact applyCols_diff j.S y x (h4.trans h2.symm)
  rw [p1, p2, p3]
  refine ⟨rfl, ?_, ?_⟩
  · show (applyCols j.S y).ang - (applyCols j.S x).ang = 0
    rw [applyCols_ang k1, applyCols_ang k1, sub_zero]
  · show (applyCols j.S y).lin = (applyCols j.S x).lin + ((applyCols j.S y).lin - (applyCols j.S x).lin)
    abel

/-- On a path of sliding joints the body keeps its orientation and its displacement is the velocity that belongs to the displacement of the
joints. -/
theorem slide_pos (wf : mb.WF) (hr : mb.Rigid) {N : Nat} (hN : N < mb.bodies.length) (hsl : mb.SlidePath N) {q q' : List (List K)}
    (hq : ValidQ mb q) (hq' : ValidQ mb q') {i : Nat} (hi : i ∈ pathUp mb.par N) :
    (mb.posAt q' i).E = (mb.posAt q i).E ∧
      mb.velAt q (mb.displacement N q q') i = ⟨0, (mb.posAt q i).E *ᵥ ((mb.posAt q' i).r - (mb.posAt q i).r)⟩ := by
  induction i using Nat.strong_induction_on with
  | _ i ih =>
    have hlt := wf.mem_pathUp_lt hN hi
    obtain ⟨a1, a2, a3⟩ := slide_at wf hN hsl hq hq' hi
    obtain ⟨b1, -, -⟩ := slide_at wf hN hsl hq' hq hi
    have hX := (mb.ptsAt_rigid hr hq i)
    set d := mb.jointMotion (mb.displacement N q q') i with hd
    have e1 : (mb.ptsAt q i).E = (mb.XtAt i).E := by
      show (mb.poseAt q i).E * (mb.XtAt i).E = _
      rw [a1, Mat3.one_mul']
    have e2 : (mb.ptsAt q' i).E = (mb.XtAt i).E := by
      show (mb.poseAt q' i).E * (mb.XtAt i).E = _
      rw [b1, Mat3.one_mul']
    have e3 : (mb.ptsAt q' i).r = (mb.ptsAt q i).r + (mb.XtAt i).E.tr *ᵥ d.lin := by
      show (mb.XtAt i).r + (mb.XtAt i).E.tr *ᵥ (mb.poseAt q' i).r = (mb.XtAt i).r + (mb.XtAt i).E.tr *ᵥ (mb.poseAt q i).r + _
      rw [a3, Mat3.mulVec_add]
      abel
    have hXt : IsRot (mb.XtAt i).E := e1 ▸ hX
    cases hp : mb.par i with
    | none =>
      rw [wf.posAt_none q hp, wf.posAt_none q' hp, wf.velAt_none hr hq _ hlt hp, ← hd, e1, e2, e3]
      refine ⟨rfl, ?_⟩
      rw [add_sub_cancel_left, hXt.mulVec_tr]
      ext1
      · exact a2
      · rfl
    | some p =>
      have hpi : p ∈ pathUp mb.par N := pathUp_trans hi (by rw [pathUp_some hp (wf.par_lt _ _ hp)]; exact List.mem_cons_of_mem _ (self_mem_pathUp _ p))
      obtain ⟨c1, c2⟩ := ih p (wf.par_lt _ _ hp) hpi
      rw [wf.posAt_some q hp, wf.posAt_some q' hp, wf.velAt_some hr hq _ hlt hp, ← hd, c2]
      refine ⟨?_, ?_⟩
      · show (mb.ptsAt q' i).E * (mb.posAt q' p).E = (mb.ptsAt q i).E * (mb.posAt q p).E
        rw [c1, e1, e2]
      · have hP : IsRot (mb.posAt q p).E := mb.posAt_rigid hr hq p
        have e4 : (mb.ptsAt q' i * mb.posAt q' p).r - (mb.ptsAt q i * mb.posAt q p).r =
            ((mb.posAt q' p).r - (mb.posAt q p).r) + (mb.posAt q p).E.tr *ᵥ (mb.XtAt i).E.tr *ᵥ d.lin := by
          rw [PTransform.mul_r, PTransform.mul_r, c1, e3, Mat3.mulVec_add]
          abel
        rw [e4, PTransform.mul_E, Mat3.mul_mulVec, Mat3.mulVec_add, Mat3.mulVec_add, hP.mulVec_tr, e1, hXt.mulVec_tr]
        ext1
        · show (mb.ptsAt q i).E *ᵥ (0 : Vec3 K) + d.ang = 0
          rw [a2, Mat3.mulVec_zero, add_zero]
        · show (mb.ptsAt q i).E *ᵥ (_ - (mb.ptsAt q i).r.cross (0 : Vec3 K)) + d.lin = _
          rw [Vec3.cross_zero, sub_zero, e1]

/-- The columns of the Jacobian of body `N` at the joint positions `q`. -/
abbrev ikCols (mb : MultiBody K) (J : Jac K) (N : Nat) (q : List (List K)) : List (MotionVec K) :=
  mb.jacCols q (.ofTrans (PTransform.ofTrans 0 * mb.posAt q N).r) J.path J.sign

theorem slide_jac (wf : mb.WF) (hr : mb.Rigid) {N : Nat} (hsl : mb.SlidePath N) {J : Jac K} (hJ : J.Of mb N 0) {q q' : List (List K)}
    (hq : ValidQ mb q) (hq' : ValidQ mb q') :
    applyCols (ikCols mb J N q) (List.zipWith (fun a b => a - b) (pathVec J.path q') (pathVec J.path q)) =
      ⟨0, (mb.posAt q' N).r - (mb.posAt q N).r⟩ := by
  have hN := hJ.isBody
  have rN : IsRot (mb.posAt q N).E := mb.posAt_rigid hr hq N
  rw [← displacement_pathVec wf hN hsl.plain hq hq' (fun i hi => by rwa [hJ.path_eq, List.mem_reverse] at hi),
    hJ.apply wf hr hq (displacement_sized wf hsl.plain hq hq'), ofTrans_mul_inv (mb.posAt_rigid hr hq N),
    (slide_pos wf hr hN hsl hq hq' (self_mem_pathUp _ N)).2]
  ext1
  · show (mb.posAt q N).E.tr *ᵥ (0 : Vec3 K) = 0
    rw [Mat3.mulVec_zero]
  · show (mb.posAt q N).E.tr *ᵥ (_ - (0 : Vec3 K).cross (0 : Vec3 K)) = _
    rw [Vec3.cross_zero, sub_zero, rN.tr_mulVec]

/-- On a path of sliding joints the Jacobian is the same everywhere. -/
theorem slide_cols (wf : mb.WF) (hr : mb.Rigid) {N : Nat} (hsl : mb.SlidePath N) {J : Jac K} (hJ : J.Of mb N 0) {q q' : List (List K)}
    (hq : ValidQ mb q) (hq' : ValidQ mb q') : ikCols mb J N q' = ikCols mb J N q := by
  unfold ikCols
  rw [jacCols_eq_homCols hJ, jacCols_eq_homCols hJ]
  unfold MultiBody.homCols MultiBody.pathCols
  refine List.flatMap_congr fun x hx => List.map_congr_left fun a ha => ?_
  have hm : J.path.getD x 0 ∈ pathUp mb.par N := by
    have := getD_mem (path := J.path) (List.mem_range.1 hx)
    rwa [hJ.path_eq, List.mem_reverse, ← hJ.path_eq] at this
  have hlt := wf.mem_pathUp_lt hJ.isBody hm
  obtain ⟨j, e, -⟩ := wf.joint_get hlt
  have hS := (slide_joint (wf.built j (List.mem_of_getElem? e)) (hsl _ hm j e)).1
  have hc : ((mb.SAt (J.path.getD x 0)).getD a 0).ang = 0 := by
    have e2 : mb.SAt (J.path.getD x 0) = j.S := by rw [MultiBody.SAt, e]; rfl
    rw [e2, List.getD_eq_getElem?_getD]
    cases h : j.S[a]? with
    | none => rfl
    | some c => exact hS c (List.mem_of_getElem? h)
  have key : ∀ X : PTransform K, X.mulMotion ((mb.SAt (J.path.getD x 0)).getD a 0) = ⟨0, X.E *ᵥ ((mb.SAt (J.path.getD x 0)).getD a 0).lin⟩ := by
    intro X
    unfold PTransform.mulMotion
    rw [hc, Vec3.cross_zero, sub_zero, Mat3.mulVec_zero]
  refine (key _).trans (Eq.trans ?_ (key _).symm)
  congr 2
  show (1 : Mat3 K) * (mb.posAt q' _).E.tr = (1 : Mat3 K) * (mb.posAt q _).E.tr
  rw [(slide_pos wf hr hJ.isBody hsl hq hq' hm).1]

/-- The linear solver of the inverse kinematics in exact arithmetic: it returns a vector of the right size, and a solution of the system if
there is one. -/
def SolvesExactly (solve : List (MotionVec K) → MotionVec K → List K) : Prop :=
  ∀ A v, (solve A v).length = A.length ∧ ((∃ x, x.length = A.length ∧ applyCols A x = v) → applyCols A (solve A v) = v)

/-- No entry of the matrix is so small that the code would take it for zero, except zero itself. -/
def NoTiny (z : K) (cols : List (MotionVec K)) : Prop :=
  ∀ c ∈ cols, ∀ x ∈ [c.ang.x, c.ang.y, c.ang.z, c.lin.x, c.lin.y, c.lin.z], x = 0 ∨ x ≤ -z ∨ z ≤ x

theorem NoTiny.roundCols {z : K} {cols : List (MotionVec K)} (h : NoTiny z cols) : roundCols z cols = cols := by
  have key : ∀ x : K, (x = 0 ∨ x ≤ -z ∨ z ≤ x) → roundOp z x = x := fun x hx => by
    unfold roundOp
    split
    · rename_i hc
      rcases hx with h | h | h
      · exact h.symm
      · exact absurd hc.1 (not_lt.2 h)
      · exact absurd hc.2 (not_lt.2 h)
    · rfl
  unfold RBDyn.roundCols
  conv_rhs => rw [← List.map_id cols]
  refine List.map_congr_left fun c hc => ?_
  have := h c hc
  simp only [List.mem_cons, List.not_mem_nil, or_false, forall_eq_or_imp, forall_eq] at this
  obtain ⟨h1, h2, h3, h4, h5, h6⟩ := this
  rw [key _ h1, key _ h2, key _ h3, key _ h4, key _ h5, key _ h6]
  rfl

theorem zipWith_step (s : K) : ∀ (x r : List K), x.length = r.length →
    List.zipWith (fun a b => a - b) (List.zipWith (fun a b => a + s * b) x r) x = r.map fun y => s * y
  | [], [], _ => rfl
  | a :: x, b :: r, h => by
    simp only [List.zipWith_cons_cons, List.map_cons, zipWith_step s x r (by simpa using h), add_sub_cancel_left]

/-- One step on a path of sliding joints takes away the fraction `λ` of the distance to a reachable target. -/
theorem IKStep.slide (wf : mb.WF) (hr : mb.Rigid) {solve : List (MotionVec K) → MotionVec K → List K} (hs : SolvesExactly solve)
    {rotErr : Mat3 K → Mat3 K → Vec3 K} {target : PTransform K} (h0 : rotErr target.E target.E = 0) {ik : IK K} {N : Nat}
    (hsl : mb.SlidePath N) {J : Jac K} (hJ : J.Of mb N 0) {q q' qt : List (List K)} (hq : ValidQ mb q) (hqt : ValidQ mb qt)
    (ht : mb.posAt qt N = target) (hz : NoTiny ik.almostZero (ikCols mb J N q)) {m : MBC K} (hm : m.PosReady mb) (hmq : m.q = q)
    (st : IKStep solve rotErr ik mb target N q q') :
    (mb.posAt q' N).E = target.E ∧ target.r - (mb.posAt q' N).r = (1 - ik.lambda) • (target.r - (mb.posAt q N).r) := by
  obtain ⟨J₁, e, hstep⟩ := st.step J m hJ hm hmq
  rw [hJ.jacobian_eq wf hm, hmq] at e
  cases e
  have hE : (mb.posAt q N).E = target.E := by rw [← ht]; exact (slide_pos wf hr hJ.isBody hsl hqt hq (self_mem_pathUp _ N)).1
  have hE' : (mb.posAt q' N).E = target.E := by rw [← ht]; exact (slide_pos wf hr hJ.isBody hsl hqt st.valid (self_mem_pathUp _ N)).1
  have hv : mb.ikResidual rotErr target N q = ⟨0, target.r - (mb.posAt q N).r⟩ := by
    unfold MultiBody.ikResidual
    rw [hE, h0]
  change pathVec J.path q' = List.zipWith _ _ (solve (roundCols ik.almostZero (ikCols mb J N q)) _) at hstep
  rw [hz.roundCols, hv] at hstep
  have hlen : ∀ {p : List (List K)}, ValidQ mb p → (pathVec J.path p).length = (J.path.map mb.dofAt).sum := fun {p} hp => by
    unfold pathVec
    rw [List.length_flatMap]
    refine congrArg List.sum (List.map_congr_left fun i hi => ?_)
    have hi' : i ∈ pathUp mb.par N := by rwa [hJ.path_eq, List.mem_reverse] at hi
    obtain ⟨_, x, -, h1, -, h2⟩ := hp.param_length wf hsl.plain hi' (hJ.path i hi)
    rw [h1, Option.getD_some, h2]
  have hA : (ikCols mb J N q).length = (J.path.map mb.dofAt).sum := jacCols_length _ _ _ _
  have hsol := (hs (ikCols mb J N q) ⟨0, target.r - (mb.posAt q N).r⟩).2 ⟨List.zipWith (fun a b => a - b) (pathVec J.path qt) (pathVec J.path q), by
    rw [List.length_zipWith, hlen hqt, hlen hq, hA, min_self], by rw [slide_jac wf hr hsl hJ hq hqt, ht]⟩
  have hj := slide_jac wf hr hsl hJ hq st.valid
  rw [hstep, zipWith_step _ _ _ (by rw [hlen hq, (hs _ _).1, hA]), applyCols_scaled, hsol] at hj
  have hl : ik.lambda • (target.r - (mb.posAt q N).r) = (mb.posAt q' N).r - (mb.posAt q N).r := congrArg MotionVec.lin hj
  refine ⟨hE', ?_⟩
  rw [sub_smul, one_smul, hl]
  abel

/-- C86, paths of sliding joints: if the target can be reached at all, every iteration takes away exactly the fraction `λ` of the distance, and the
answer is true exactly if one of the distances `(1 - λ)^x d` is below the threshold. The orientation is always the one of the target. The linear
system is supposed to be solved exactly and the code's rounding of small entries of the Jacobian to have no effect. Partial: for other joints the
code can miss a reachable target, see `C86_stuck_counterexample`. -/
theorem C86_sliding_partial (wf : mb.WF) (hr : mb.Rigid) {solve : List (MotionVec K) → MotionVec K → List K} (hs : SolvesExactly solve)
    {rotErr : Mat3 K → Mat3 K → Vec3 K} {target : PTransform K} (h0 : rotErr target.E target.E = 0) {ik : IK K} {N : Nat}
    (hN : ik.efIndex = N) (hsl : mb.SlidePath N) {mbc : MBC K} (sz : mbc.Sized mb) (hq : ValidQ mb mbc.q) (hJ : ik.jac.Of mb N 0)
    {qt : List (List K)} (hqt : ValidQ mb qt) (ht : mb.posAt qt N = target)
    (hz : ∀ m J, forwardKinematics mb mbc = .ok m → ik.jac.jacobian mb m = .ok J → NoTiny ik.almostZero J.jac) :
    ∃ (n : Nat) (Q : Nat → List (List K)) (m : MBC K) (J : Jac K) (b : Bool),
      inverseKinematics solve rotErr ik mb mbc target = .ok (m, J, b) ∧ n ≤ ik.maxIterations.toNat ∧ Q 0 = mbc.q ∧ m.q = Q n ∧
      (∀ x ≤ n, (mb.posAt (Q x) N).E = target.E ∧
        target.r - (mb.posAt (Q x) N).r = (1 - ik.lambda) ^ x • (target.r - (mb.posAt mbc.q N).r)) ∧
      (∀ x, normLt ⟨0, (1 - ik.lambda) ^ x • (target.r - (mb.posAt mbc.q N).r)⟩ ik.threshold → n ≤ x + 1) ∧
      (b = true ↔ ∃ x < ik.maxIterations.toNat, normLt ⟨0, (1 - ik.lambda) ^ x • (target.r - (mb.posAt mbc.q N).r)⟩ ik.threshold) ∧
      (b = true → 0 < n ∧ normLt ⟨0, (1 - ik.lambda) ^ (n - 1) • (target.r - (mb.posAt mbc.q N).r)⟩ ik.threshold) := by
  obtain ⟨n, Q, m, J, b, h1, h2, h3, h4, h5, h6, h7, h8, -⟩ :=
    C45_inverse_kinematics wf hr (fun A v => (hs A v).1) rotErr target hN hsl.plain sz hq hJ
  have hvalid : ∀ x ≤ n, ValidQ mb (Q x) := fun x hx => by
    rcases x with - | x
    · rw [h3]; exact hq
    · exact (h5 x (by omega)).valid
  obtain ⟨m₀, f1, f2, f3, f4, -⟩ := C23_posReady wf sz
  have hz0 : NoTiny ik.almostZero (ikCols mb ik.jac N mbc.q) := by
    have := hz m₀ _ f1 (hJ.jacobian_eq wf f2)
    rwa [f4] at this
  have hE0 : (mb.posAt mbc.q N).E = target.E := by rw [← ht]; exact (slide_pos wf hr hJ.isBody hsl hqt hq (self_mem_pathUp _ N)).1
  have key : ∀ x ≤ n, (mb.posAt (Q x) N).E = target.E ∧
      target.r - (mb.posAt (Q x) N).r = (1 - ik.lambda) ^ x • (target.r - (mb.posAt mbc.q N).r) := by
    intro x
    induction x with
    | zero => intro _; rw [h3, pow_zero, one_smul]; exact ⟨hE0, rfl⟩
    | succ x ih =>
      intro hx
      obtain ⟨-, i2⟩ := ih (by omega)
      obtain ⟨mx, g1, g2, -, g3, -⟩ := C23_posReady wf (mbc := { mbc with q := Q x }) { sz with q := (hvalid x (by omega)).sizes wf }
      obtain ⟨k1, k2⟩ := (h5 x (by omega)).slide wf hr hs h0 hsl hJ (hvalid x (by omega)) hqt ht
        (by rw [slide_cols wf hr hsl hJ hq (hvalid x (by omega))]; exact hz0) g2 g3
      exact ⟨k1, by rw [k2, i2, smul_smul, pow_succ']⟩
  have hres : ∀ x ≤ n, mb.ikResidual rotErr target N (Q x) = ⟨0, (1 - ik.lambda) ^ x • (target.r - (mb.posAt mbc.q N).r)⟩ := fun x hx => by
    unfold MultiBody.ikResidual
    rw [(key x hx).1, (key x hx).2, h0]
  have hb : b = true → 0 < n ∧ normLt ⟨0, (1 - ik.lambda) ^ (n - 1) • (target.r - (mb.posAt mbc.q N).r)⟩ ik.threshold := fun hb => by
    obtain ⟨a1, a2⟩ := h7 hb
    exact ⟨a1, by rwa [hres _ (by omega)] at a2⟩
  refine ⟨n, Q, m, J, b, h1, h2, h3, h4, key, fun x hx => ?_, ⟨fun h => ⟨n - 1, by have := (hb h).1; omega, (hb h).2⟩, fun ⟨x, hx, hl⟩ => ?_⟩, hb⟩
  · by_contra hc
    exact h6 x (by omega) (by rwa [hres x (by omega)])
  · cases hbb : b with
    | true => rfl
    | false =>
      obtain ⟨a1, a2⟩ := h8 hbb
      exact absurd (by rwa [hres x (by omega)]) (a2 x (by omega))

theorem Vec3.normSq_smul (s : K) (v : Vec3 K) : (s • v).normSq = s * s * v.normSq := by
  rw [Vec3.normSq, Vec3.normSq, Vec3.smul_dot, Vec3.dot_smul, mul_assoc]

/-- C86 for an object as the constructor makes it (50 iterations, `λ = 0.9`, thresholds `1e-8`): with a path of sliding joints and a target that
can be reached and is nearer than `10^(k-8)` for some `k` below 50, the answer is true after at most `k + 1` iterations, and the body ends nearer
than `1e-9` to the target, with the orientation of the target. In particular everything within `10^41` is found. -/
theorem C86_default_partial (wf : mb.WF) (hr : mb.Rigid) {solve : List (MotionVec K) → MotionVec K → List K} (hs : SolvesExactly solve)
    {rotErr : Mat3 K → Mat3 K → Vec3 K} {target : PTransform K} (h0 : rotErr target.E target.E = 0) {junk : Nat → MotionVec K} {ik : IK K}
    {N : Nat} {bd : Body K} (hb : mb.bodies[N]? = some bd) (hn : mb.sBodyIndexByName bd.name = .ok (N : Int))
    (hik : IK.mk' junk mb N = .ok ik) (hsl : mb.SlidePath N) {mbc : MBC K} (sz : mbc.Sized mb) (hq : ValidQ mb mbc.q)
    {qt : List (List K)} (hqt : ValidQ mb qt) (ht : mb.posAt qt N = target)
    (hz : ∀ m J, forwardKinematics mb mbc = .ok m → ik.jac.jacobian mb m = .ok J → NoTiny (1 / 10 ^ 8) J.jac)
    {k : Nat} (hk : k < 50) (hd : (target.r - (mb.posAt mbc.q N).r).normSq < (10 ^ k / 10 ^ 8) * (10 ^ k / 10 ^ 8)) :
    ∃ (n : Nat) (Q : Nat → List (List K)) (m : MBC K) (J : Jac K), inverseKinematics solve rotErr ik mb mbc target = .ok (m, J, true) ∧
      n ≤ k + 1 ∧ Q 0 = mbc.q ∧ m.q = Q n ∧ (mb.posAt m.q N).E = target.E ∧
      (target.r - (mb.posAt m.q N).r).normSq < (1 / 10 ^ 9) * (1 / 10 ^ 9) ∧
      ∀ x ≤ n, target.r - (mb.posAt (Q x) N).r = (1 / 10 : K) ^ x • (target.r - (mb.posAt mbc.q N).r) := by
  obtain ⟨ik', e, hJ, h1, h2, h3, h4, h5⟩ := C45_constructor wf junk hb hn
  rw [hik] at e
  cases e
  have hl : (1 : K) - ik.lambda = 1 / 10 := by rw [h3]; norm_num
  obtain ⟨n, Q, m, J, b, g1, g2, g3, g4, g5, g6, g7, g8⟩ := C86_sliding_partial wf hr hs h0 h1 hsl sz hq hJ hqt ht (by rwa [h5])
  rw [hl] at g5 g6 g7 g8
  set d := target.r - (mb.posAt mbc.q N).r with hdd
  have hlt : normLt ⟨0, ((1 : K) / 10) ^ k • d⟩ ik.threshold := by
    rw [h4]
    refine ⟨by positivity, ?_⟩
    rw [Vec3.normSq_smul]
    have hz : (0 : Vec3 K).normSq = 0 := by simp [Vec3.normSq]
    rw [hz, zero_add]
    have hp : (0 : K) < (1 / 10) ^ k * (1 / 10) ^ k := by positivity
    have := mul_lt_mul_of_pos_left hd hp
    refine lt_of_lt_of_eq this ?_
    have h10 : ((1 : K) / 10) ^ k * 10 ^ k = 1 := by rw [← mul_pow]; norm_num
    calc (1 / 10 : K) ^ k * (1 / 10) ^ k * (10 ^ k / 10 ^ 8 * (10 ^ k / 10 ^ 8))
        = ((1 / 10 : K) ^ k * 10 ^ k) * ((1 / 10 : K) ^ k * 10 ^ k) * (1 / 10 ^ 8 * (1 / 10 ^ 8)) := by ring
      _ = 1 / 10 ^ 8 * (1 / 10 ^ 8) := by rw [h10]; ring
  have hbt : b = true := g7.2 ⟨k, by rw [h2]; exact hk, hlt⟩
  subst hbt
  obtain ⟨a1, a2⟩ := g8 rfl
  obtain ⟨c1, c2⟩ := g5 n le_rfl
  refine ⟨n, Q, m, J, g1, g6 k hlt, g3, g4, by rw [g4]; exact c1, ?_, fun x hx => (g5 x hx).2⟩
  rw [g4, c2]
  obtain ⟨n, rfl⟩ : ∃ y, n = y + 1 := ⟨n - 1, by omega⟩
  rw [Nat.add_sub_cancel, h4] at a2
  have a3 := a2.2
  have hz : (0 : Vec3 K).normSq = 0 := by simp [Vec3.normSq]
  rw [hz, zero_add] at a3
  rw [pow_succ', ← smul_smul, Vec3.normSq_smul]
  have := mul_lt_mul_of_pos_left a3 (show (0 : K) < 1 / 10 * (1 / 10) by norm_num)
  refine lt_of_lt_of_eq this ?_
  norm_num

/-- C86, targets out of reach: if no configuration brings body `N` within the threshold of the target, the answer is false. For every robot without
quaternion joints on the path, every solver and every rotation error. -/
theorem C86_out_of_reach (wf : mb.WF) (hr : mb.Rigid) {solve : List (MotionVec K) → MotionVec K → List K}
    (hs : ∀ A v, (solve A v).length = A.length) (rotErr : Mat3 K → Mat3 K → Vec3 K) {ik : IK K} (target : PTransform K) {N : Nat}
    (hN : ik.efIndex = N) (hpl : mb.PlainPath N) {mbc : MBC K} (sz : mbc.Sized mb) (hq : ValidQ mb mbc.q) (hJ : ik.jac.Of mb N 0)
    (h : ∀ q, ValidQ mb q → ¬ normLt (mb.ikResidual rotErr target N q) ik.threshold) :
    ∃ (m : MBC K) (J : Jac K), inverseKinematics solve rotErr ik mb mbc target = .ok (m, J, false) := by
  obtain ⟨n, Q, m, J, b, h1, h2, h3, h4, h5, h6, h7, h8, -⟩ := C45_inverse_kinematics wf hr hs rotErr target hN hpl sz hq hJ
  cases hb : b with
  | false => exact ⟨m, J, hb ▸ h1⟩
  | true =>
    obtain ⟨a1, a2⟩ := h7 hb
    refine absurd a2 (h _ ?_)
    rcases Nat.lt_or_ge 1 n with hn | hn
    · obtain ⟨y, hy⟩ : ∃ y, n - 1 = y + 1 := ⟨n - 2, by omega⟩
      rw [hy]
      exact (h5 y (by omega)).valid
    · obtain rfl : n = 1 := by omega
      rw [show 1 - 1 = 0 from rfl, h3]
      exact hq

/-- The least squares solution of smallest norm is zero when the right-hand side is orthogonal to all columns. -/
def SolvesOrthogonal (solve : List (MotionVec K) → MotionVec K → List K) : Prop :=
  ∀ A v, (solve A v).length = A.length ∧ ((∀ c ∈ A, c.ang.dot v.ang + c.lin.dot v.lin = 0) → ∀ x ∈ solve A v, x = 0)

theorem zipWith_rest (s : K) : ∀ (x r : List K), x.length = r.length → (∀ y ∈ r, y = 0) → List.zipWith (fun a b => a + s * b) x r = x
  | [], [], _, _ => rfl
  | a :: x, b :: r, h, hr => by
    rw [List.zipWith_cons_cons, zipWith_rest s x r (by simpa using h) fun y hy => hr y (by simp [hy]), hr b (by simp), mul_zero, add_zero]

omit [Scalar K] in
theorem pathVec_inj : ∀ {path : List Nat} {q q' : List (List K)}, q'.map List.length = q.map List.length → pathVec path q' = pathVec path q →
    ∀ i ∈ path, q'[i]? = q[i]?
  | [], _, _, _, _ => by simp
  | i :: path, q, q', hl, h => by
    have ec : ∀ v : List (List K), pathVec (i :: path) v = (v[i]?).getD [] ++ pathVec path v := fun v => rfl
    rw [ec, ec] at h
    have hi : (q'[i]?).map List.length = (q[i]?).map List.length := by rw [← List.getElem?_map, ← List.getElem?_map, hl]
    obtain ⟨h1, h2⟩ := List.append_inj h (by
      cases e : q[i]? <;> cases e' : q'[i]? <;> rw [e, e'] at hi <;> simp_all)
    have h3 : q'[i]? = q[i]? := by
      cases e : q[i]? <;> cases e' : q'[i]? <;> rw [e, e'] at hi h1 <;> simp_all
    intro k hk
    rcases List.mem_cons.1 hk with rfl | hk
    · exact h3
    · exact pathVec_inj hl h2 k hk

/-- C86, local minima: where the residual is not below the threshold but orthogonal to all columns of the Jacobian, the code does not move and
answers false after the last iteration, whether the target can be reached or not. -/
theorem C86_stuck (wf : mb.WF) (hr : mb.Rigid) {solve : List (MotionVec K) → MotionVec K → List K} (hs : SolvesOrthogonal solve)
    (rotErr : Mat3 K → Mat3 K → Vec3 K) {ik : IK K} (target : PTransform K) {N : Nat}
    (hN : ik.efIndex = N) (hpl : mb.PlainPath N) {mbc : MBC K} (sz : mbc.Sized mb) (hq : ValidQ mb mbc.q) (hJ : ik.jac.Of mb N 0)
    (hres : ¬ normLt (mb.ikResidual rotErr target N mbc.q) ik.threshold)
    (ho : ∀ m J, forwardKinematics mb mbc = .ok m → ik.jac.jacobian mb m = .ok J → ∀ c ∈ roundCols ik.almostZero J.jac,
      c.ang.dot (mb.ikResidual rotErr target N mbc.q).ang + c.lin.dot (mb.ikResidual rotErr target N mbc.q).lin = 0) :
    ∃ (m : MBC K) (J : Jac K), inverseKinematics solve rotErr ik mb mbc target = .ok (m, J, false) ∧ m.q = mbc.q := by
  obtain ⟨n, Q, m, J, b, h1, h2, h3, h4, h5, h6, h7, h8, -⟩ :=
    C45_inverse_kinematics wf hr (fun A v => (hs A v).1) rotErr target hN hpl sz hq hJ
  obtain ⟨m₀, f1, f2, -, f4, -⟩ := C23_posReady wf sz
  have hQ : ∀ x ≤ n, Q x = mbc.q := by
    intro x
    induction x with
    | zero => exact fun _ => h3
    | succ x ih =>
      intro hx
      have st := h5 x (by omega)
      rw [ih (by omega)] at st
      obtain ⟨J₁, e, hstep⟩ := st.step ik.jac m₀ hJ f2 f4
      have hl : (Q (x + 1)).map List.length = mbc.q.map List.length := (st.valid.sizes wf).trans sz.q.symm
      have hz := (hs (roundCols ik.almostZero J₁.jac) (mb.ikResidual rotErr target N mbc.q)).2 (ho m₀ J₁ f1 e)
      have hlen : (pathVec ik.jac.path mbc.q).length =
          (solve (roundCols ik.almostZero J₁.jac) (mb.ikResidual rotErr target N mbc.q)).length := by
        rw [(hs _ _).1, roundCols, List.length_map]
        rw [hJ.jacobian_eq wf f2] at e
        cases e
        rw [jacCols_length]
        refine sz.q.pathVec_length wf fun i hi => ⟨hJ.path i hi, fun j ej => ?_⟩
        obtain ⟨t1, t2⟩ := hpl i (by rwa [hJ.path_eq, List.mem_reverse] at hi) j ej
        exact ((wf.built j (List.mem_of_getElem? ej)).plain t1 t2).1
      rw [zipWith_rest _ _ _ hlen hz] at hstep
      refine List.ext_getElem? fun i => ?_
      by_cases hi : i ∈ pathUp mb.par N
      · exact pathVec_inj hl hstep i (by rwa [hJ.path_eq, List.mem_reverse])
      · exact st.frame i hi
  cases hb : b with
  | false => exact ⟨m, J, hb ▸ h1, by rw [h4, hQ n le_rfl]⟩
  | true =>
    obtain ⟨a1, a2⟩ := h7 hb
    rw [hQ _ (by omega)] at a2
    exact absurd a2 hres

/-- Exact least squares, as far as the theorems need it: zero if the right-hand side is orthogonal to all columns, otherwise a solution if there is
one. -/
noncomputable def bestSolution (A : List (MotionVec K)) (v : MotionVec K) : List K :=
  open Classical in
  if ∀ c ∈ A, c.ang.dot v.ang + c.lin.dot v.lin = 0 then A.map fun _ => 0
  else if h : ∃ x : List K, x.length = A.length ∧ applyCols A x = v then h.choose else A.map fun _ => 0

theorem applyCols_orth (v : MotionVec K) : ∀ {A : List (MotionVec K)}, (∀ c ∈ A, c.ang.dot v.ang + c.lin.dot v.lin = 0) → ∀ x : List K,
    (applyCols A x).ang.dot v.ang + (applyCols A x).lin.dot v.lin = 0
  | [], _, x => by simp [applyCols]
  | c :: A, h, [] => by simp [applyCols]
  | c :: A, h, a :: x => by
    have h1 := applyCols_orth v (A := A) (fun c hc => h c (by simp [hc])) x
    have h2 := h c (by simp)
    have e : applyCols (c :: A) (a :: x) = a • c + applyCols A x := by simp [applyCols]
    rw [e]
    show ((a • c.ang) + _).dot _ + ((a • c.lin) + _).dot _ = 0
    rw [Vec3.add_dot, Vec3.add_dot, Vec3.smul_dot, Vec3.smul_dot]
    linear_combination a * h2 + h1

theorem bestSolution_orthogonal : SolvesOrthogonal (bestSolution (K := K)) := by
  intro A v
  unfold bestSolution
  split
  · exact ⟨by simp, fun _ x hx => by simpa [eq_comm] using (List.mem_map.1 hx).imp fun _ h => h.2⟩
  · rename_i h
    refine ⟨?_, fun h' => absurd h' h⟩
    split
    · rename_i h2
      exact h2.choose_spec.1
    · simp

theorem bestSolution_exact : SolvesExactly (bestSolution (K := K)) := by
  intro A v
  refine ⟨(bestSolution_orthogonal A v).1, fun hx => ?_⟩
  unfold bestSolution
  split
  · rename_i h
    obtain ⟨x, -, e⟩ := hx
    have h0 := applyCols_orth v h x
    rw [e] at h0
    have h1 : v.ang.x * v.ang.x + v.ang.y * v.ang.y + v.ang.z * v.ang.z + (v.lin.x * v.lin.x + v.lin.y * v.lin.y + v.lin.z * v.lin.z) = 0 := by
      simpa only [Vec3.dot] using h0
    have sq := fun a : K => mul_self_nonneg a
    have hv : v = 0 := by
      ext <;> refine mul_self_eq_zero.1 (le_antisymm ?_ (sq _)) <;>
        nlinarith [sq v.ang.x, sq v.ang.y, sq v.ang.z, sq v.lin.x, sq v.lin.y, sq v.lin.z]
    rw [applyCols_zeros A (by simp), hv]
  · exact hx.choose_spec.2
namespace Sample

noncomputable def armJoints : List (Joint ℝ) := [Joint.mk' .Rev ⟨0, 0, 1⟩ true "a", Joint.mk' .Rev ⟨0, 0, 1⟩ true "b", Joint.mk' .Rev ⟨0, 0, 1⟩ true "c"]

noncomputable def armBodies : List (Body ℝ) :=
  [⟨⟨1, 0, ⟨1, 0, 1, 0, 0, 1⟩⟩, "x"⟩, ⟨⟨1, 0, ⟨1, 0, 1, 0, 0, 1⟩⟩, "y"⟩, ⟨⟨1, 0, ⟨1, 0, 1, 0, 0, 1⟩⟩, "z"⟩]

noncomputable def armXt : List (PTransform ℝ) := [1, ⟨1, ⟨1, 0, 0⟩⟩, ⟨1, ⟨1, 0, 0⟩⟩]

theorem arm_units : ∀ j ∈ armJoints, j.BuiltUnit := by
  intro j hj
  simp only [armJoints, List.mem_cons, List.not_mem_nil, or_false] at hj
  rcases hj with rfl | rfl | rfl <;> exact .mk _ _ _ _ (by simp [ValidAxis, IsUnit3])

/-- A planar arm with three revolute joints, two links of length one and a hand. -/
structure IsArm (mb : MultiBody ℝ) : Prop where
  wf : mb.WF
  bodies : mb.bodies = armBodies
  joints : mb.joints = armJoints
  pred : mb.pred = [-1, 0, 1]
  Xt : mb.Xt = armXt
  index : mb.sBodyIndexByName "z" = .ok 2

theorem arm_exists : ∃ mb, MultiBody.mk' armBodies armJoints [-1, 0, 1] [0, 1, 2] [-1, 0, 1] armXt = .ok mb ∧ IsArm mb := by
  obtain ⟨mb, h, hw, h1, h2, h5, -, -, h6⟩ := MultiBody.mk'_wf armBodies armJoints [-1, 0, 1] [0, 1, 2] [-1, 0, 1] armXt rfl rfl rfl
    (by intro i hi
        have : i < 3 := hi
        obtain rfl | rfl | rfl : i = 0 ∨ i = 1 ∨ i = 2 := by omega
        all_goals rfl)
    (by intro i p hp
        obtain ⟨hi, -⟩ := List.getElem?_eq_some_iff.1 hp
        have : i < 3 := hi
        obtain rfl | rfl | rfl : i = 0 ∨ i = 1 ∨ i = 2 := by omega
        all_goals (cases hp; decide))
    rfl (fun j hj => (arm_units j hj).built)
  refine ⟨mb, h, hw, h1, h2, h5, h6, ?_⟩
  have e : (MultiBody.mk' armBodies armJoints [-1, 0, 1] [0, 1, 2] [-1, 0, 1] armXt >>= fun m => m.sBodyIndexByName "z") = .ok 2 := by rfl
  rw [h] at e
  exact e


/-- The configuration of the stretched arm. -/
noncomputable def armMbc : MBC ℝ :=
  { q := [[0], [0], [0]], alpha := [[0], [0], [0]], alphaD := [[0], [0], [0]], force := [0, 0, 0], jointConfig := [1, 1, 1],
    jointVelocity := [0, 0, 0], jointTorque := [[0], [0], [0]], motionSubspace := [[0], [0], [0]], bodyPosW := [1, 1, 1],
    parentToSon := [1, 1, 1], bodyVelW := [0, 0, 0], bodyVelB := [0, 0, 0], bodyAccB := [0, 0, 0], gravity := 0 }

namespace IsArm
variable {mb : MultiBody ℝ} (h : IsArm mb)
include h

theorem par0 : mb.par 0 = none := by unfold MultiBody.par; rw [h.pred]; rfl
theorem par1 : mb.par 1 = some 0 := by unfold MultiBody.par; rw [h.pred]; rfl
theorem par2 : mb.par 2 = some 1 := by unfold MultiBody.par; rw [h.pred]; rfl

theorem pathUp2 : pathUp mb.par 2 = [2, 1, 0] := by
  rw [pathUp_some h.par2 (by omega), pathUp_some h.par1 (by omega), pathUp_none h.par0]

theorem rigid : mb.Rigid := by
  constructor
  · rw [h.joints]; exact arm_units
  · rw [h.Xt]
    intro X hX
    simp only [armXt, List.mem_cons, List.not_mem_nil, or_false] at hX
    rcases hX with rfl | rfl | rfl <;> exact IsRot.one

theorem valid (a b c : ℝ) : ValidQ mb [[a], [b], [c]] := by
  unfold ValidQ
  rw [h.joints]
  exact .cons ⟨rfl, trivial⟩ (.cons ⟨rfl, trivial⟩ (.cons ⟨rfl, trivial⟩ .nil))

theorem sized : armMbc.Sized mb := by
  have hl : mb.bodies.length = 3 := by rw [h.bodies]; rfl
  constructor <;> first | (unfold SizedQ; rw [h.joints]; rfl) | (unfold SizedDof; rw [h.joints]; rfl) | (rw [h.joints]; rfl) | (rw [hl]; rfl)

theorem pts (a b c : ℝ) : mb.ptsAt [[a], [b], [c]] 0 = ⟨angleAxis (-a) ⟨0, 0, 1⟩, 0⟩ ∧
    mb.ptsAt [[a], [b], [c]] 1 = ⟨angleAxis (-b) ⟨0, 0, 1⟩, ⟨1, 0, 0⟩⟩ ∧ mb.ptsAt [[a], [b], [c]] 2 = ⟨angleAxis (-c) ⟨0, 0, 1⟩, ⟨1, 0, 0⟩⟩ := by
  have e : ∀ x : ℝ, ∀ n : String, (Joint.mk' .Rev ⟨0, 0, 1⟩ true n : Joint ℝ).pose [x] = .ok ⟨angleAxis (-x) ⟨0, 0, 1⟩, 0⟩ := fun x n => by
    rw [Joint.pose_rev]
    simp [Joint.sgn]
  unfold MultiBody.ptsAt MultiBody.poseAt MultiBody.XtAt
  rw [h.joints, h.Xt]
  refine ⟨?_, ?_, ?_⟩ <;> simp only [armJoints, armXt, List.getElem?_cons_zero, List.getElem?_cons_succ, e, Except.toOption, Option.getD_some] <;>
    ext <;> simp

theorem pos (a b c : ℝ) : mb.posAt [[a], [b], [c]] 2 = ⟨angleAxis (-c) ⟨0, 0, 1⟩, ⟨1, 0, 0⟩⟩ *
    (⟨angleAxis (-b) ⟨0, 0, 1⟩, ⟨1, 0, 0⟩⟩ * ⟨angleAxis (-a) ⟨0, 0, 1⟩, 0⟩) := by
  obtain ⟨h0, h1, h2⟩ := h.pts a b c
  rw [h.wf.posAt_some _ h.par2, h.wf.posAt_some _ h.par1, h.wf.posAt_none _ h.par0, h0, h1, h2]

theorem pos0 (k : Nat) (hk : k < 3) : mb.posAt armMbc.q k = ⟨1, ⟨k, 0, 0⟩⟩ := by
  obtain ⟨h0, h1, h2⟩ := h.pts 0 0 0
  have r : angleAxis (-0 : ℝ) ⟨0, 0, 1⟩ = 1 := by ext <;> simp [angleAxis]
  have e0 : mb.posAt armMbc.q 0 = ⟨1, ⟨0, 0, 0⟩⟩ := by
    refine (h.wf.posAt_none _ h.par0).trans (h0.trans ?_)
    rw [r]; rfl
  have e1 : mb.posAt armMbc.q 1 = ⟨1, ⟨1, 0, 0⟩⟩ := by
    rw [h.wf.posAt_some _ h.par1, e0]
    refine (congrArg (· * _) h1).trans ?_
    rw [r]; ext <;> simp
  have e2 : mb.posAt armMbc.q 2 = ⟨1, ⟨2, 0, 0⟩⟩ := by
    rw [h.wf.posAt_some _ h.par2, e1]
    refine (congrArg (· * _) h2).trans ?_
    rw [r]; ext <;> simp; norm_num
  obtain rfl | rfl | rfl : k = 0 ∨ k = 1 ∨ k = 2 := by omega
  · rw [e0]; simp
  · rw [e1]; simp
  · rw [e2]; simp

theorem reach : mb.posAt [[Real.pi / 2], [Real.pi], [Real.pi / 2]] 2 = 1 := by
  have r1 : angleAxis (-(Real.pi / 2)) (⟨0, 0, 1⟩ : Vec3 ℝ) = ⟨0, 1, 0, -1, 0, 0, 0, 0, 1⟩ := by
    have c : Scalar.cos (-(Real.pi / 2)) = (0 : ℝ) := by rw [Scalar.cos_neg]; exact Real.cos_pi_div_two
    have s : Scalar.sin (-(Real.pi / 2)) = (-1 : ℝ) := by rw [Scalar.sin_neg]; exact congrArg _ Real.sin_pi_div_two
    ext <;> simp [angleAxis, c, s]
  have r2 : angleAxis (-Real.pi) (⟨0, 0, 1⟩ : Vec3 ℝ) = ⟨-1, 0, 0, 0, -1, 0, 0, 0, 1⟩ := by
    have c : Scalar.cos (-Real.pi) = (-1 : ℝ) := by rw [Scalar.cos_neg]; exact Real.cos_pi
    have s : Scalar.sin (-Real.pi) = (0 : ℝ) := by rw [Scalar.sin_neg]; exact neg_eq_zero.2 Real.sin_pi
    ext <;> simp [angleAxis, c, s]
  rw [h.pos, r1, r2]
  ext <;> simp

theorem cols {J : Jac ℝ} (hJ : J.Of mb 2 0) : ∀ c ∈ ikCols mb J 2 armMbc.q, c.lin.x = 0 := by
  intro c hc
  unfold ikCols at hc
  rw [jacCols_eq_homCols hJ, h.pos0 2 (by omega)] at hc
  unfold MultiBody.homCols MultiBody.pathCols at hc
  obtain ⟨x, hx, hc⟩ := List.mem_flatMap.1 hc
  obtain ⟨a, ha, hc⟩ := List.mem_map.1 hc
  beta_reduce at hc
  rw [PTransform.motionHom_apply] at hc
  have hm : J.path.getD x 0 ∈ pathUp mb.par 2 := by
    have := getD_mem (path := J.path) (List.mem_range.1 hx)
    rwa [hJ.path_eq, List.mem_reverse, ← hJ.path_eq] at this
  rw [h.pathUp2] at hm
  generalize J.path.getD x 0 = k at hm hc
  have hk : k < 3 := by simp only [List.mem_cons, List.not_mem_nil, or_false] at hm; omega
  have hS : (mb.SAt k).getD a 0 = ⟨⟨0, 0, 1⟩, 0⟩ ∨ (mb.SAt k).getD a 0 = 0 := by
    have e : mb.SAt k = [⟨⟨0, 0, 1⟩, 0⟩] := by
      unfold MultiBody.SAt
      rw [h.joints]
      obtain rfl | rfl | rfl : k = 0 ∨ k = 1 ∨ k = 2 := by omega
      all_goals simp [armJoints, Joint.mk', Joint.mkS]
    rw [e]
    cases a with
    | zero => exact Or.inl rfl
    | succ a => exact Or.inr (by simp)
  rw [h.pos0 k hk] at hc
  rw [← hc]
  rcases hS with e | e <;> rw [e] <;> simp [PTransform.mulMotion, PTransform.inv, PTransform.ofTrans]

end IsArm
end Sample

/-- C86 fails when joints turn: the stretched arm with two links of length one is asked to bring its hand back to its base, in the same orientation. It
can do so, by folding, but the distance is orthogonal to all columns of the Jacobian: with exact least squares the code does not move at all, and
answers false after 50 iterations. -/
theorem C86_stuck_counterexample : ∃ (mb : MultiBody ℝ) (mbc : MBC ℝ) (ik : IK ℝ),
    mb.WF ∧ mb.Rigid ∧ mbc.Sized mb ∧ ValidQ mb mbc.q ∧ IK.mk' (fun _ => 0) mb 2 = .ok ik ∧ (∃ qt, ValidQ mb qt ∧ mb.posAt qt 2 = 1) ∧
    ∀ solve, SolvesExactly solve → SolvesOrthogonal solve → ∀ rotErr : Mat3 ℝ → Mat3 ℝ → Vec3 ℝ, (∀ E, rotErr E E = 0) →
      ∃ (m : MBC ℝ) (J : Jac ℝ), inverseKinematics solve rotErr ik mb mbc 1 = .ok (m, J, false) ∧ m.q = mbc.q ∧
        (mb.posAt m.q 2).r = ⟨2, 0, 0⟩ := by
  obtain ⟨mb, -, h⟩ := Sample.arm_exists
  have hb : mb.bodies[2]? = some ⟨⟨1, 0, ⟨1, 0, 1, 0, 0, 1⟩⟩, "z"⟩ := by rw [h.bodies]; rfl
  obtain ⟨ik, e, hJ, h1, h2, h3, h4, h5⟩ := C45_constructor h.wf (fun _ => 0) hb h.index
  refine ⟨mb, Sample.armMbc, ik, h.wf, h.rigid, h.sized, h.valid 0 0 0, e, ⟨_, h.valid _ _ _, h.reach⟩, fun solve _ hs rotErr h0 => ?_⟩
  have hp := h.pos0 2 (by omega)
  have hres : mb.ikResidual rotErr 1 2 Sample.armMbc.q = ⟨0, ⟨-2, 0, 0⟩⟩ := by
    unfold MultiBody.ikResidual
    rw [hp]
    ext <;> simp [h0]
  have hpl : mb.PlainPath 2 := fun i _ j ej => by
    rw [h.joints] at ej
    have hm := List.mem_of_getElem? ej
    simp only [Sample.armJoints, List.mem_cons, List.not_mem_nil, or_false] at hm
    rcases hm with rfl | rfl | rfl <;> exact ⟨by decide, by decide⟩
  obtain ⟨m, J, r1, r2⟩ := C86_stuck h.wf h.rigid hs rotErr 1 h1 hpl h.sized (h.valid 0 0 0) hJ
    (by rw [hres, h4, normLt]
        simp only [Vec3.normSq, Vec3.dot]
        norm_num)
    (fun m J f e c hc => by
      obtain ⟨m₀, f1, f2, -, f4, -⟩ := C23_posReady h.wf h.sized
      rw [f1] at f
      cases f
      rw [hJ.jacobian_eq h.wf f2] at e
      cases e
      obtain ⟨c', hc', rfl⟩ := List.mem_map.1 hc
      have hx := h.cols hJ c' (by rw [f4] at hc'; exact hc')
      rw [hres]
      simp [Vec3.dot, hx, roundOp])
  exact ⟨m, J, r1, r2, by rw [r2, hp]; norm_num⟩

/-- The hypotheses on the solver are met by exact least squares, for every field. -/
example : SolvesExactly (bestSolution (K := ℝ)) ∧ SolvesOrthogonal (bestSolution (K := ℝ)) := ⟨bestSolution_exact, bestSolution_orthogonal⟩

namespace Sample

def gantryJoints : List (Joint ℚ) :=
  [Joint.mk' .Prism ⟨1, 0, 0⟩ true "a", Joint.mk' .Fixed ⟨0, 0, 0⟩ true "b", Joint.mk' .Prism ⟨0, 2, 0⟩ false "c"]

/-- Two sliding joints with a fixed one between them that turns the second axis. -/
def gantry : MultiBody ℚ :=
  ((MultiBody.mk' ikBodies gantryJoints [-1, 0, 1] [0, 1, 2] [-1, 0, 1] [1, ⟨⟨0, 0, 1, 0, 1, 0, -1, 0, 0⟩, ⟨1, 0, 0⟩⟩,
    ⟨⟨1, 0, 0, 0, -1, 0, 0, 0, -1⟩, 0⟩]).toOption).getD ⟨[], [], [], [], [], [], [], [], [], [], 0, 0⟩

def gantryMbc : MBC ℚ :=
  { q := [[0], [], [3]], alpha := [[1], [], [0]], alphaD := [[0], [], [0]], force := [0, 0, 0], jointConfig := [1, 1, 1],
    jointVelocity := [0, 0, 0], jointTorque := [[0], [], [0]], motionSubspace := [[0], [], [0]], bodyPosW := [1, 1, 1],
    parentToSon := [1, 1, 1], bodyVelW := [0, 0, 0], bodyVelB := [0, 0, 0], bodyAccB := [0, 0, 0], gravity := 0 }

theorem gantry_mk : MultiBody.mk' ikBodies gantryJoints [-1, 0, 1] [0, 1, 2] [-1, 0, 1] [1, ⟨⟨0, 0, 1, 0, 1, 0, -1, 0, 0⟩, ⟨1, 0, 0⟩⟩,
    ⟨⟨1, 0, 0, 0, -1, 0, 0, 0, -1⟩, 0⟩] = .ok gantry := by decide +kernel

theorem gantry_units : ∀ j ∈ gantryJoints, j.BuiltUnit := by
  intro j hj
  simp only [gantryJoints, List.mem_cons, List.not_mem_nil, or_false] at hj
  rcases hj with rfl | rfl | rfl <;> exact .mk _ _ _ _ trivial

theorem gantry_wf : gantry.WF := by
  obtain ⟨mb', h, hw, -⟩ := MultiBody.mk'_wf ikBodies gantryJoints [-1, 0, 1] [0, 1, 2] [-1, 0, 1]
    [1, ⟨⟨0, 0, 1, 0, 1, 0, -1, 0, 0⟩, ⟨1, 0, 0⟩⟩, ⟨⟨1, 0, 0, 0, -1, 0, 0, 0, -1⟩, 0⟩] rfl rfl rfl
    (by intro i hi
        have : i < 3 := hi
        obtain rfl | rfl | rfl : i = 0 ∨ i = 1 ∨ i = 2 := by omega
        all_goals rfl)
    (by intro i p hp
        obtain ⟨hi, -⟩ := List.getElem?_eq_some_iff.1 hp
        have : i < 3 := hi
        obtain rfl | rfl | rfl : i = 0 ∨ i = 1 ∨ i = 2 := by omega
        all_goals (cases hp; decide))
    rfl (fun j hj => (gantry_units j hj).built)
  rw [gantry_mk] at h
  cases h
  exact hw

theorem gantry_rigid : gantry.Rigid := by
  have hj : gantry.joints = gantryJoints := by decide +kernel
  have hX : gantry.Xt = [1, ⟨⟨0, 0, 1, 0, 1, 0, -1, 0, 0⟩, ⟨1, 0, 0⟩⟩, ⟨⟨1, 0, 0, 0, -1, 0, 0, 0, -1⟩, 0⟩] := by decide +kernel
  constructor
  · rw [hj]; exact gantry_units
  · rw [hX]
    intro X hX
    simp only [List.mem_cons, List.not_mem_nil, or_false] at hX
    rcases hX with rfl | rfl | rfl <;> exact ⟨by decide +kernel, by decide +kernel⟩

theorem gantry_slide : gantry.SlidePath 2 := fun i _ j ej => by
  have hj : gantry.joints = gantryJoints := by decide +kernel
  rw [hj] at ej
  have hm := List.mem_of_getElem? ej
  simp only [gantryJoints, List.mem_cons, List.not_mem_nil, or_false] at hm
  rcases hm with rfl | rfl | rfl <;> decide

theorem gantry_valid (a b : ℚ) : ValidQ gantry [[a], [], [b]] := by
  have hj : gantry.joints = gantryJoints := by decide +kernel
  unfold ValidQ
  rw [hj]
  exact .cons ⟨rfl, trivial⟩ (.cons ⟨rfl, trivial⟩ (.cons ⟨rfl, trivial⟩ .nil))

theorem gantry_sized : gantryMbc.Sized gantry := by
  constructor <;> first | decide +kernel | (show List.map List.length _ = _; decide +kernel)

end Sample

/-- `C86_default_partial` applies to a robot with two sliding joints and a target more than a hundred away, and with exact least squares: the answer
is true, after at most twelve iterations. -/
example : ∃ ik, IK.mk' (fun _ => 0) Sample.gantry 2 = .ok ik ∧ ∃ (m : MBC ℚ) (J : Jac ℚ),
    inverseKinematics bestSolution (fun A B => ⟨A.m00 - B.m00, A.m01 - B.m01, A.m02 - B.m02⟩) ik Sample.gantry Sample.gantryMbc
      (Sample.gantry.posAt [[100], [], [-50]] 2) = .ok (m, J, true) ∧ Sample.gantry.SlidePath 2 ∧
    (Sample.gantry.posAt [[100], [], [-50]] 2).r ≠ (Sample.gantry.posAt Sample.gantryMbc.q 2).r := by
  have hb : Sample.gantry.bodies[2]? = some ⟨⟨2, 0, ⟨1, 0, 1, 0, 0, 1⟩⟩, "z"⟩ := by decide +kernel
  have hn : Sample.gantry.sBodyIndexByName "z" = .ok ((2 : Nat) : Int) := by decide +kernel
  obtain ⟨ik, e, -⟩ := C45_constructor Sample.gantry_wf (fun _ => 0) hb hn
  obtain ⟨n, Q, m, J, h1, -⟩ := C86_default_partial Sample.gantry_wf Sample.gantry_rigid (solve := bestSolution) bestSolution_exact
    (rotErr := fun A B => ⟨A.m00 - B.m00, A.m01 - B.m01, A.m02 - B.m02⟩) (target := Sample.gantry.posAt [[100], [], [-50]] 2)
    (by ext <;> simp) hb hn e Sample.gantry_slide Sample.gantry_sized (Sample.gantry_valid 0 3)
    (Sample.gantry_valid 100 (-50)) rfl
    (fun m₀ J₀ f1 f2 => by
      have hc : ∃ c, (do let m ← forwardKinematics Sample.gantry Sample.gantryMbc; let ik ← IK.mk' (fun _ => 0) Sample.gantry 2
                         let J ← ik.jac.jacobian Sample.gantry m
                         return J.jac : Res (List (MotionVec ℚ))) = .ok c ∧ NoTiny (1 / 10 ^ 8) c := by
        refine ⟨[⟨0, ⟨1, 0, 0⟩⟩, ⟨0, ⟨0, 2, 0⟩⟩], by decide +kernel, ?_⟩
        unfold NoTiny
        decide +kernel
      obtain ⟨c, e1, e2⟩ := hc
      have e' : IK.mk' (fun _ => 0) Sample.gantry 2 = .ok ik := e
      rw [f1, Res.bind_ok, e', Res.bind_ok, f2, Res.bind_ok] at e1
      cases e1
      exact e2)
    (k := 11) (by omega) (by decide +kernel)
  exact ⟨ik, e, m, J, h1, Sample.gantry_slide, by decide +kernel⟩

/-- `C86_out_of_reach` applies to the same robot and a target in an orientation that it cannot take. -/
example : ∃ ik, IK.mk' (fun _ => 0) Sample.gantry 2 = .ok ik ∧ ∃ (m : MBC ℚ) (J : Jac ℚ),
    inverseKinematics bestSolution (fun A B => ⟨A.m00 - B.m00, A.m01 - B.m01, A.m02 - B.m02⟩) ik Sample.gantry Sample.gantryMbc 1 =
      .ok (m, J, false) := by
  have hb : Sample.gantry.bodies[2]? = some ⟨⟨2, 0, ⟨1, 0, 1, 0, 0, 1⟩⟩, "z"⟩ := by decide +kernel
  have hn : Sample.gantry.sBodyIndexByName "z" = .ok ((2 : Nat) : Int) := by decide +kernel
  obtain ⟨ik, e, hJ, h1, -, -, h4, -⟩ := C45_constructor Sample.gantry_wf (fun _ => 0) hb hn
  refine ⟨ik, e, C86_out_of_reach Sample.gantry_wf Sample.gantry_rigid (fun A v => (bestSolution_exact A v).1) _ 1 h1
    Sample.gantry_slide.plain Sample.gantry_sized (Sample.gantry_valid 0 3) hJ fun q hq hl => ?_⟩
  have hE := (slide_pos Sample.gantry_wf Sample.gantry_rigid hJ.isBody Sample.gantry_slide (Sample.gantry_valid 0 3) hq (self_mem_pathUp _ 2)).1
  have h0 : (Sample.gantry.posAt [[0], [], [3]] 2).E = ⟨0, 0, 1, 0, -1, 0, 1, 0, 0⟩ := by decide +kernel
  rw [h4] at hl
  have h2 := hl.2
  simp only [MultiBody.ikResidual, hE, h0, Vec3.normSq, Vec3.dot, PTransform.one_E, Mat3.one_m00, Mat3.one_m01, Mat3.one_m02] at h2
  have sq := fun a : ℚ => mul_self_nonneg a
  linarith [sq ((1 : PTransform ℚ).r - (Sample.gantry.posAt q 2).r).x, sq ((1 : PTransform ℚ).r - (Sample.gantry.posAt q 2).r).y,
    sq ((1 : PTransform ℚ).r - (Sample.gantry.posAt q 2).r).z]

end RBDyn
