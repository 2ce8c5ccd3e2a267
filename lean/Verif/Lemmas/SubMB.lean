import Verif.Lemmas.JacRel
import Verif.Lemmas.Safe

/-! The robot `subMultiBody` makes of the path of a `Jacobian`. -/

namespace RBDyn
variable {K : Type} [Scalar K] {mb : MultiBody K} {J : Jac K}

/-- The static transform `subMultiBody` gives to joint `k`. -/
def Jac.subX (J : Jac K) (mb : MultiBody K) (k : Nat) : PTransform K :=
  if k = 0 then if J.sign[k]?.getD 1 = -1 then 1 else mb.XtAt (J.path[k]?.getD 0)
  else if J.sign[k - 1]?.getD 1 = -1 then
    if J.sign[k]?.getD 1 = -1 then (mb.XtAt (J.path[k - 1]?.getD 0)).inv
    else (mb.XtAt (J.path[k - 1]?.getD 0)).inv * mb.XtAt (J.path[k]?.getD 0)
  else mb.XtAt (J.path[k]?.getD 0)

/-- The joint `subMultiBody` makes of a joint of the robot. -/
def Joint.subJ (s : K) (j : Joint K) : Joint K := if s = -1 then j.setForward (!j.isForward) else j

/-- Entry `k` of the lists `subMultiBody` builds. -/
def Jac.SubSlot (J : Jac K) (mb : MultiBody K) (k : Nat) (bs : List (Body K)) (js : List (Joint K)) (Xs : List (PTransform K)) : Prop :=
  ∃ i b j s, J.path[k]? = some i ∧ i < mb.bodies.length ∧ mb.bodies[i]? = some b ∧ mb.joints[i]? = some j ∧ J.sign[k]? = some s ∧
    bs[k]? = some b ∧ js[k]? = some (j.subJ s) ∧ Xs[k]? = some (J.subX mb k)

theorem Jac.subStep_eq (wf : mb.WF) (hf : J.Fits mb) {n : Nat} (hn : n < J.path.length) (bs : List (Body K)) (js : List (Joint K))
    (Xs : List (PTransform K)) : ∃ i b j s, J.path[n]? = some i ∧ i < mb.bodies.length ∧ mb.bodies[i]? = some b ∧ mb.joints[i]? = some j ∧
      J.sign[n]? = some s ∧ J.subStep mb (bs, js, Xs) n = .ok (bs ++ [b], js ++ [j.subJ s], Xs ++ [J.subX mb n]) := by
  have hp : J.path[n]? = some J.path[n] := List.getElem?_eq_getElem hn
  have hi := hf.path _ (List.getElem_mem hn)
  have hs : J.sign[n]? = some (J.sign[n]'(by rw [hf.sign]; exact hn)) := List.getElem?_eq_getElem _
  generalize J.path[n] = i at hp hi
  generalize (J.sign[n]'_) = s at hs
  have hb : mb.bodies[i]? = some mb.bodies[i] := List.getElem?_eq_getElem hi
  have hj : mb.joints[i]? = some (mb.joints[i]'(by rw [wf.njoints]; exact hi)) := List.getElem?_eq_getElem _
  have hX : mb.Xt[i]? = some (mb.XtAt i) := by
    unfold MultiBody.XtAt
    rw [List.getElem?_eq_getElem (by rw [wf.nXt]; exact hi)]; rfl
  generalize (mb.joints[i]'_) = j at hj
  generalize (mb.bodies[i]'_) = b at hb
  refine ⟨i, b, j, s, hp, hi, hb, hj, hs, ?_⟩
  unfold Jac.subStep
  dsimp only
  simp only [rd_eq_ok_iff.2 hp, rd_eq_ok_iff.2 hb, rd_eq_ok_iff.2 hs, rd_eq_ok_iff.2 hX, rd_eq_ok_iff.2 hj, Res.bind_ok]
  by_cases h0 : n = 0
  · subst h0
    simp only [if_true]
    by_cases h1 : s = -1
    · simp [h1, Jac.subX, hs, Joint.subJ, PTransform.ofTrans, Res.pure_eq, Res.bind_ok]; rfl
    · simp [h1, Jac.subX, hs, hp, Joint.subJ, Res.pure_eq, Res.bind_ok]
  · have hn' : n - 1 < J.path.length := by omega
    have hp' : J.path[n - 1]? = some J.path[n - 1] := List.getElem?_eq_getElem hn'
    have hi' := hf.path _ (List.getElem_mem hn')
    have hs' : J.sign[n - 1]? = some (J.sign[n - 1]'(by rw [hf.sign]; exact hn')) := List.getElem?_eq_getElem _
    generalize J.path[n - 1] = i' at hp' hi'
    generalize (J.sign[n - 1]'_) = s' at hs'
    have hX' : mb.Xt[i']? = some (mb.XtAt i') := by
      unfold MultiBody.XtAt
      rw [List.getElem?_eq_getElem (by rw [wf.nXt]; exact hi')]; rfl
    rw [if_neg h0]
    simp only [rd_eq_ok_iff.2 hp', rd_eq_ok_iff.2 hs', rd_eq_ok_iff.2 hX', Res.bind_ok]
    by_cases h1 : s' = -1 <;> by_cases h2 : s = -1 <;>
      simp [h1, h2, h0, Jac.subX, hs, hp, hs', hp', Joint.subJ, Res.pure_eq, Res.bind_ok]

theorem Joint.subJ_built {j : Joint K} (h : j.Built) (s : K) : (j.subJ s).Built := by
  unfold Joint.subJ; split
  · exact .setForward _ _ h
  · exact h

theorem Joint.subJ_type (j : Joint K) (s : K) : (j.subJ s).type = j.type := by unfold Joint.subJ; split <;> rfl
theorem Joint.subJ_dof (j : Joint K) (s : K) : (j.subJ s).dof = j.dof := by unfold Joint.subJ; split <;> rfl

/-- `subMultiBody` succeeds and gives a serial chain. -/
theorem Jac.subMultiBody_eq (wf : mb.WF) (hf : J.Fits mb) : ∃ sub, J.subMultiBody mb = .ok sub ∧ sub.WF ∧
    sub.bodies.length = J.path.length ∧ (∀ k, k < J.path.length → J.SubSlot mb k sub.bodies sub.joints sub.Xt) ∧
    (∀ k, k < J.path.length → sub.par k = if k = 0 then none else some (k - 1)) ∧
    ∀ k, k < J.path.length → sub.pred[k]? = some ((k : Int) - 1) := by
  obtain ⟨⟨bs, js, Xs⟩, e, hb, hj, hX, hs⟩ := foldlM_range_inv (J.subStep mb)
    (fun n s => s.1.length = n ∧ s.2.1.length = n ∧ s.2.2.length = n ∧ ∀ k, k < n → J.SubSlot mb k s.1 s.2.1 s.2.2)
    J.path.length ([], [], []) ⟨rfl, rfl, rfl, fun k hk => absurd hk (Nat.not_lt_zero k)⟩ (by
      rintro n ⟨bs, js, Xs⟩ hn ⟨hb, hj, hX, hs⟩
      obtain ⟨i, b, j, s, h1, h2, h3, h4, h5, h6⟩ := Jac.subStep_eq wf hf hn bs js Xs
      dsimp only at hb hj hX hs
      refine ⟨_, h6, by simp [hb], by simp [hj], by simp [hX], fun k hk => ?_⟩
      dsimp only
      by_cases hkn : k = n
      · subst hkn
        refine ⟨i, b, j, s, h1, h2, h3, h4, h5, ?_, ?_, ?_⟩
        · rw [List.getElem?_append_right (by omega), hb]; simp
        · rw [List.getElem?_append_right (by omega), hj]; simp
        · rw [List.getElem?_append_right (by omega), hX]; simp
      · obtain ⟨i', b', j', s', g1, g2, g3, g4, g5, g6, g7, g8⟩ := hs k (by omega)
        refine ⟨i', b', j', s', g1, g2, g3, g4, g5, ?_, ?_, ?_⟩
        · rw [List.getElem?_append_left (by omega), g6]
        · rw [List.getElem?_append_left (by omega), g7]
        · rw [List.getElem?_append_left (by omega), g8])
  dsimp only at hb hj hX hs
  obtain ⟨sub, h1, h2, h3, h4, h5, -, -, h8⟩ := MultiBody.mk'_wf bs js ((List.range J.path.length).map fun i : Nat => (i : Int) - 1)
    ((List.range J.path.length).map fun i : Nat => (i : Int)) ((List.range J.path.length).map fun i : Nat => (i : Int) - 1) Xs (by omega)
    (by simp [hb]) (by omega) (by intro i hi; rw [range_map_getElem? (by omega)])
    (by
      intro i p hp
      obtain ⟨hi, -⟩ := List.getElem?_eq_some_iff.1 hp
      simp only [List.length_map, List.length_range] at hi
      rw [range_map_getElem? hi] at hp
      cases hp
      omega) rfl (by
      intro x hx
      obtain ⟨k, hk, rfl⟩ := List.mem_iff_getElem.1 hx
      obtain ⟨i, b, j, s, -, -, -, g4, -, -, g7, -⟩ := hs k (by omega)
      rw [List.getElem?_eq_getElem hk] at g7
      rw [Option.some.inj g7]
      exact Joint.subJ_built (wf.built j (List.mem_of_getElem? g4)) s)
  refine ⟨sub, ?_, h2, by rw [h3, hb], ?_, ?_, fun k hk => by rw [h5, range_map_getElem? hk]⟩
  · unfold Jac.subMultiBody
    rw [e, Res.bind_ok]
    exact h1
  · rw [h3, h4, h8]; exact hs
  · intro k hk
    unfold MultiBody.par
    rw [h5, range_map_getElem? hk]
    dsimp only
    by_cases h0 : k = 0
    · subst h0; rfl
    · rw [if_neg (by omega), if_neg h0]
      congr 1
      omega

/-- The entries of a per-joint vector that belong to the joints of the path, one list per joint. -/
def pathList (path : List Nat) (v : List (List K)) : List (List K) := path.map fun i => (v[i]?).getD []

theorem pathList_get {path : List Nat} {v : List (List K)} {k i : Nat} {x : List K} (h : path[k]? = some i) (hx : v[i]? = some x) :
    (pathList path v)[k]? = some x := by
  unfold pathList
  rw [List.getElem?_map, h]
  simp [hx]

/-- What is known of the result of `subMultiBody`. -/
structure Jac.SubOf (J : Jac K) (mb sub : MultiBody K) : Prop where
  wf : sub.WF
  nbodies : sub.bodies.length = J.path.length
  slot : ∀ k, k < J.path.length → J.SubSlot mb k sub.bodies sub.joints sub.Xt
  par : ∀ k, k < J.path.length → sub.par k = if k = 0 then none else some (k - 1)

theorem Joint.reverse_pose {j : Joint K} (hj : j.BuiltUnit) {q : List K} (hq : ValidParam j.type q) :
    ∃ X, j.pose q = .ok X ∧ IsRigid X ∧ (j.setForward (!j.isForward)).pose q = .ok X.inv := by
  have main : ∀ (t : JointType) (a : Vec3 K) (f : Bool) (n : String), ValidAxis t a → ValidParam t q →
      ∃ X, (Joint.mk' t a f n).pose q = .ok X ∧ IsRigid X ∧ (Joint.mk' t a (!f) n).pose q = .ok X.inv := by
    intro t a f n ha hq
    obtain ⟨X, h1, h2⟩ := pose_mk'_reverse ha n n hq
    obtain ⟨X', h3, hr⟩ := pose_mk'_rigid ha true n hq
    rw [h1] at h3
    cases h3
    cases f with
    | true => exact ⟨X, h1, hr, h2⟩
    | false => exact ⟨X.inv, h2, hr.inv, by rw [PTransform.inv_inv _ hr]; exact h1⟩
  obtain ⟨t, a, f, n, ha, rfl | ⟨mn, m, o, rfl⟩⟩ := hj.exists_mk
  · rw [isForward_mk', setForward_mk']
    exact main t a f n ha hq
  · obtain ⟨X, h1, h2, h3⟩ := main t a f n ha hq
    refine ⟨X, h1, h2, ?_⟩
    rw [setForward_makeMimic]
    have : ((Joint.mk' t a f n).makeMimic mn m o).isForward = (Joint.mk' t a f n).isForward := rfl
    rw [this, isForward_mk', setForward_mk']
    exact h3

theorem Jac.SubOf.pts {sub : MultiBody K} (hs : J.SubOf mb sub) (hr : mb.Rigid) {q : List (List K)} (hq : ValidQ mb q) {k i : Nat} {s : K}
    (hk : J.path[k]? = some i) (hsk : J.sign[k]? = some s) : sub.ptsAt (pathList J.path q) k =
      (if s = -1 then (mb.poseAt q i).inv else mb.poseAt q i) * J.subX mb k := by
  obtain ⟨hkl, -⟩ := List.getElem?_eq_some_iff.1 hk
  obtain ⟨i', b, j, s', h1, h2, h3, h4, h5, h6, h7, h8⟩ := hs.slot k hkl
  rw [hk] at h1; cases h1
  rw [hsk] at h5; cases h5
  obtain ⟨hil, hij⟩ := List.getElem?_eq_some_iff.1 h4
  have hl := hq.length_eq
  have hx : q[i]? = some (q[i]'(by omega)) := List.getElem?_eq_getElem _
  have hv := hq.get hil (by omega)
  have hjm : j ∈ mb.joints := List.mem_of_getElem? h4
  simp only [List.get_eq_getElem] at hv
  rw [hij] at hv
  obtain ⟨X, e1, -, e2⟩ := Joint.reverse_pose (hr.joints j hjm) hv
  have hX : mb.poseAt q i = X := by simp [MultiBody.poseAt, h4, hx, e1, Except.toOption]
  have hX' : sub.poseAt (pathList J.path q) k = ((j.subJ s).pose (q[i]'(by omega))).toOption.getD 1 := by
    unfold MultiBody.poseAt
    rw [h7, pathList_get hk hx]
  unfold MultiBody.ptsAt MultiBody.XtAt
  rw [hX', hX, h8, Joint.subJ]
  split
  · rw [e2]; rfl
  · rw [e1]; rfl

/-! ### Paths from the root -/

theorem pathUp_reverse_chain {par : Nat → Option Nat} (hpar : ∀ i j, par i = some j → j < i) (N : Nat) :
    ∀ k i : Nat, (pathUp par N).reverse[k]? = some i → par i = if k = 0 then none else (pathUp par N).reverse[k - 1]? := by
  induction N using Nat.strong_induction_on with
  | _ N ih =>
    intro k i hi
    cases hp : par N with
    | none =>
      rw [pathUp_none hp] at hi
      obtain ⟨hk, e⟩ := List.getElem?_eq_some_iff.1 hi
      have hk0 : k = 0 := by simpa using hk
      subst hk0
      simp only [List.reverse_cons, List.reverse_nil, List.nil_append, List.getElem_cons_zero] at e
      rw [← e, hp, if_pos rfl]
    | some m =>
      have hm := hpar N m hp
      rw [pathUp_some hp hm, List.reverse_cons] at hi ⊢
      by_cases hk : k < (pathUp par m).reverse.length
      · rw [List.getElem?_append_left hk] at hi
        rw [List.getElem?_append_left (by omega)]
        exact ih m hm k i hi
      · rw [List.getElem?_append_right (by omega)] at hi
        obtain ⟨hk', e⟩ := List.getElem?_eq_some_iff.1 hi
        have hk0 : k = (pathUp par m).reverse.length := by simp only [List.length_cons, List.length_nil] at hk'; omega
        simp only [hk0, Nat.sub_self, List.getElem_cons_zero] at e
        obtain ⟨l, hl⟩ := pathUp_head (par := par) m
        have hlen : 0 < (pathUp par m).reverse.length := by rw [hl]; simp
        rw [← e, hp, if_neg (by omega), List.getElem?_append_left (by omega), hk0, hl]
        simp

theorem neg_one_ne_one' : (1 : K) ≠ -1 := by
  intro h
  have : (2 : K) = 0 := by linear_combination h
  exact two_ne_zero this

section root
variable {N : Nat} {p : Vec3 K} {sub : MultiBody K}

theorem Jac.Of.sign_get (h : J.Of mb N p) {k i : Nat} (hk : J.path[k]? = some i) : J.sign[k]? = some 1 := by
  rw [h.sign_eq, List.getElem?_map, hk]; rfl

theorem Jac.Of.par_eq (h : J.Of mb N p) (wf : mb.WF) {k i : Nat} (hk : J.path[k]? = some i) :
    mb.par i = if k = 0 then none else J.path[k - 1]? := by
  rw [h.path_eq] at hk ⊢
  exact pathUp_reverse_chain wf.par_lt N k i hk

theorem Jac.Of.subX_eq (h : J.Of mb N p) {k i : Nat} (hk : J.path[k]? = some i) : J.subX mb k = mb.XtAt i := by
  have n1 : (1 : K) ≠ -1 := neg_one_ne_one'
  obtain ⟨hl, -⟩ := List.getElem?_eq_some_iff.1 hk
  have h2 := h.sign_get (k := k - 1) (List.getElem?_eq_getElem (by omega : k - 1 < J.path.length))
  simp [Jac.subX, h.sign_get hk, h2, n1, hk]

theorem Joint.subJ_one (j : Joint K) : j.subJ 1 = j := by
  have n1 : (1 : K) ≠ -1 := neg_one_ne_one'
  rw [Joint.subJ, if_neg n1]

theorem Jac.Of.sub_joint (h : J.Of mb N p) (hs : J.SubOf mb sub) {k i : Nat} (hk : J.path[k]? = some i) :
    sub.joints[k]? = mb.joints[i]? ∧ sub.bodies[k]? = mb.bodies[i]? ∧ sub.XtAt k = mb.XtAt i := by
  obtain ⟨hl, -⟩ := List.getElem?_eq_some_iff.1 hk
  obtain ⟨i', b, j, s, h1, h2, h3, h4, h5, h6, h7, h8⟩ := hs.slot k hl
  rw [hk] at h1; cases h1
  rw [h.sign_get hk] at h5; cases h5
  rw [h3, h4, h6, h7, Joint.subJ_one, MultiBody.XtAt, h8, h.subX_eq hk]
  exact ⟨rfl, rfl, rfl⟩

theorem Jac.Of.sub_rigid (h : J.Of mb N p) (hs : J.SubOf mb sub) (hr : mb.Rigid) : sub.Rigid := by
  constructor
  · intro j hj
    obtain ⟨k, hk, rfl⟩ := List.mem_iff_getElem.1 hj
    have hk' : k < J.path.length := by rw [← hs.nbodies, ← hs.wf.njoints]; exact hk
    have := (h.sub_joint hs (List.getElem?_eq_getElem hk')).1
    rw [List.getElem?_eq_getElem hk] at this
    exact hr.joints _ (List.mem_of_getElem? this.symm)
  · intro X hX
    obtain ⟨k, hk, rfl⟩ := List.mem_iff_getElem.1 hX
    have hk' : k < J.path.length := by rw [← hs.nbodies, ← hs.wf.nXt]; exact hk
    have := (h.sub_joint hs (List.getElem?_eq_getElem hk')).2.2
    rw [MultiBody.XtAt, List.getElem?_eq_getElem hk, Option.getD_some] at this
    rw [this]
    unfold MultiBody.XtAt
    cases e : mb.Xt[J.path[k]]? with
    | none => exact IsRigid.one
    | some X => exact hr.Xt X (List.mem_of_getElem? e)

theorem SubOf.validQ {sub : MultiBody K} (hs : J.SubOf mb sub) {q : List (List K)} (hq : ValidQ mb q) : ValidQ sub (pathList J.path q) := by
  have hn : sub.joints.length = J.path.length := by rw [hs.wf.njoints, hs.nbodies]
  refine List.forall₂_iff_get.2 ⟨by rw [hn, pathList, List.length_map], fun k h1 h2 => ?_⟩
  have hk : k < J.path.length := by omega
  obtain ⟨i, b, j, s, e1, e2, e3, e4, e5, e6, e7, e8⟩ := hs.slot k hk
  obtain ⟨hil, hij⟩ := List.getElem?_eq_some_iff.1 e4
  have hl := hq.length_eq
  have hx : q[i]? = some (q[i]'(by omega)) := List.getElem?_eq_getElem _
  have hv := hq.get hil (by omega)
  simp only [List.get_eq_getElem] at hv ⊢
  rw [hij] at hv
  have g1 := (List.getElem?_eq_some_iff.1 e7).2
  have g2 := (List.getElem?_eq_some_iff.1 (pathList_get e1 hx)).2
  rw [g1, g2, Joint.subJ_type]
  exact hv

theorem Jac.Of.sub_pts (h : J.Of mb N p) (hs : J.SubOf mb sub) {q : List (List K)} (hq : q.length = mb.bodies.length) {k i : Nat}
    (hk : J.path[k]? = some i) : sub.ptsAt (pathList J.path q) k = mb.ptsAt q i := by
  obtain ⟨e1, e2, e3⟩ := h.sub_joint hs hk
  have hi := h.path i (List.mem_of_getElem? hk)
  have hx : q[i]? = some (q[i]'(by omega)) := List.getElem?_eq_getElem _
  unfold MultiBody.ptsAt MultiBody.poseAt
  rw [e1, e3, pathList_get hk hx, hx]

theorem Jac.Of.sub_motion (h : J.Of mb N p) (hs : J.SubOf mb sub) {a : List (List K)} (ha : a.length = mb.bodies.length) {k i : Nat}
    (hk : J.path[k]? = some i) : sub.jointMotion (pathList J.path a) k = mb.jointMotion a i := by
  obtain ⟨e1, e2, e3⟩ := h.sub_joint hs hk
  have hi := h.path i (List.mem_of_getElem? hk)
  have hx : a[i]? = some (a[i]'(by omega)) := List.getElem?_eq_getElem _
  unfold MultiBody.jointMotion MultiBody.SAt
  rw [e1, pathList_get hk hx, hx]

/-- Poses and velocities of the bodies of the chain. -/
theorem Jac.Of.sub_kinematics (h : J.Of mb N p) (hs : J.SubOf mb sub) (wf : mb.WF) (hr : mb.Rigid) {q a : List (List K)} (hq : ValidQ mb q)
    (ha : a.length = mb.bodies.length) : ∀ k i : Nat, J.path[k]? = some i → sub.posAt (pathList J.path q) k = mb.posAt q i ∧
      sub.velAt (pathList J.path q) (pathList J.path a) k = mb.velAt q a i := by
  have hql : q.length = mb.bodies.length := by rw [← hq.length_eq, wf.njoints]
  have hq' := SubOf.validQ hs hq
  have hr' := h.sub_rigid hs hr
  intro k
  induction k with
  | zero =>
    intro i hi
    obtain ⟨hl, -⟩ := List.getElem?_eq_some_iff.1 hi
    have e1 := h.par_eq wf hi
    have e2 : sub.par 0 = none := by rw [hs.par 0 hl, if_pos rfl]
    rw [if_pos rfl] at e1
    have hil := h.path i (List.mem_of_getElem? hi)
    constructor
    · rw [hs.wf.posAt_none _ e2, wf.posAt_none _ e1, h.sub_pts hs hql hi]
    · rw [hs.wf.velAt_none hr' hq' _ (by rw [hs.nbodies]; exact hl) e2, wf.velAt_none hr hq _ hil e1, h.sub_motion hs ha hi]
  | succ k ih =>
    intro i hi
    obtain ⟨hl, -⟩ := List.getElem?_eq_some_iff.1 hi
    have e1 := h.par_eq wf hi
    have hk : J.path[k]? = some (J.path[k]'(by omega)) := List.getElem?_eq_getElem _
    have e2 : sub.par (k + 1) = some k := by rw [hs.par _ hl, if_neg (by omega)]; rfl
    rw [if_neg (by omega), Nat.add_sub_cancel, hk] at e1
    obtain ⟨i1, i2⟩ := ih _ hk
    have hil := h.path i (List.mem_of_getElem? hi)
    constructor
    · rw [hs.wf.posAt_some _ e2, wf.posAt_some _ e1, h.sub_pts hs hql hi, i1]
    · rw [hs.wf.velAt_some hr' hq' _ (by rw [hs.nbodies]; exact hl) e2, wf.velAt_some hr hq _ hil e1, h.sub_motion hs ha hi,
        h.sub_pts hs hql hi, i2]

end root

/-! ### Relative paths -/

/-- The path of a relative Jacobian: up from `R` to below `c` along `U`, with sign -1, and down from `c` along `V`, with sign 1. -/
structure Jac.Walk (J : Jac K) (mb : MultiBody K) (R c : Nat) (U V : List Nat) : Prop where
  path : J.path = U ++ V
  sign : J.sign = (U.map fun _ => -1) ++ V.map fun _ => 1
  start : (U ++ [c])[0]? = some R
  up : ∀ k i : Nat, U[k]? = some i → ∃ j, mb.par i = some j ∧ (U ++ [c])[k + 1]? = some j
  down : ∀ k i : Nat, V[k]? = some i → ∃ j, mb.par i = some j ∧ (c :: V)[k]? = some j

section walk
variable {R c : Nat} {U V : List Nat}

theorem Jac.Walk.sign_up (h : J.Walk mb R c U V) {k : Nat} (hk : k < U.length) : J.sign[k]? = some (-1) := by
  rw [h.sign, List.getElem?_append_left (by simpa using hk), List.getElem?_map, List.getElem?_eq_getElem hk]; rfl

theorem Jac.Walk.sign_down (h : J.Walk mb R c U V) {k : Nat} (hk : U.length ≤ k) (hk' : k < J.path.length) : J.sign[k]? = some 1 := by
  rw [h.path, List.length_append] at hk'
  rw [h.sign, List.getElem?_append_right (by simpa using hk), List.getElem?_map, List.length_map,
    List.getElem?_eq_getElem (by omega)]; rfl

theorem Jac.Walk.path_up (h : J.Walk mb R c U V) {k : Nat} (hk : k < U.length) : J.path[k]? = U[k]? := by
  rw [h.path, List.getElem?_append_left hk]

theorem Jac.Walk.path_down (h : J.Walk mb R c U V) {k : Nat} (hk : U.length ≤ k) : J.path[k]? = V[k - U.length]? := by
  rw [h.path, List.getElem?_append_right hk]

/-- Poses in the robot of a relative path: the bodies on the way up are at the base of their joint, the bodies on the way down are where they
are relative to the reference body, if the two static transforms at the turn commute. -/
theorem Jac.Walk.pos (h : J.Walk mb R c U V) {sub : MultiBody K} (hs : J.SubOf mb sub) (wf : mb.WF) (hr : mb.Rigid) {q : List (List K)}
    (hq : ValidQ mb q)
    (hc : ∀ u v, U.getLast? = some u → V.head? = some v → (mb.XtAt u).inv * mb.XtAt v = mb.XtAt v * (mb.XtAt u).inv) :
    ∀ k i : Nat, J.path[k]? = some i →
      (k < U.length → ∃ j, mb.par i = some j ∧ (U ++ [c])[k + 1]? = some j ∧
        sub.posAt (pathList J.path q) k = mb.XtAt i * mb.posAt q j * (mb.posAt q R).inv) ∧
      (U.length ≤ k → sub.posAt (pathList J.path q) k = mb.posAt q i * (mb.posAt q R).inv) := by
  have hX : ∀ i, IsRigid (mb.XtAt i) := fun i => by
    unfold MultiBody.XtAt
    cases e : mb.Xt[i]? with
    | none => exact IsRigid.one
    | some X => exact hr.Xt X (List.mem_of_getElem? e)
  have hP := fun i => mb.posAt_rigid hr hq i
  have hJ := fun i => mb.poseAt_rigid hr hq i
  have hpos : ∀ {i j}, mb.par i = some j → mb.posAt q i = mb.poseAt q i * mb.XtAt i * mb.posAt q j := fun e => wf.posAt_some q e
  have n1 : (1 : K) ≠ -1 := neg_one_ne_one'
  intro k
  induction k with
  | zero =>
    intro i hi
    obtain ⟨hl, -⟩ := List.getElem?_eq_some_iff.1 hi
    have hp := hs.wf.posAt_none (pathList J.path q) (i := 0) (by rw [hs.par 0 hl, if_pos rfl])
    constructor
    · intro hU
      have hiU := hi
      rw [h.path_up hU] at hiU
      have hR : i = R := by
        have := h.start
        rw [List.getElem?_append_left hU, hiU] at this
        exact Option.some.inj this
      obtain ⟨j, e1, e2⟩ := h.up 0 i hiU
      refine ⟨j, e1, e2, ?_⟩
      rw [hp, hs.pts hr hq hi (h.sign_up hU), if_pos rfl]
      have : J.subX mb 0 = 1 := by simp [Jac.subX, h.sign_up hU]
      have key : mb.XtAt i * mb.posAt q j = (mb.poseAt q i).inv * mb.posAt q i := by
        rw [hpos e1, PTransform.mul_assoc' (mb.poseAt q i), ← PTransform.mul_assoc' (mb.poseAt q i).inv, PTransform.inv_mul (hJ i),
          PTransform.one_mul']
      rw [this, PTransform.mul_one', ← hR, key, PTransform.mul_assoc', PTransform.mul_inv (hP i), PTransform.mul_one']
    · intro hU
      have hU0 : U = [] := List.length_eq_zero_iff.1 (by omega)
      subst hU0
      have hRc : c = R := by simpa using h.start
      have hiV := hi
      rw [h.path_down (by simp)] at hiV
      obtain ⟨j, e1, e2⟩ := h.down 0 i hiV
      have : j = c := by simpa using e2.symm
      subst this
      have e3 : J.subX mb 0 = mb.XtAt i := by simp [Jac.subX, h.sign_down (Nat.zero_le _) hl, n1, hi]
      rw [hp, hs.pts hr hq hi (h.sign_down hU hl), if_neg n1, e3, hpos e1, PTransform.mul_assoc' _ (mb.posAt q j), hRc,
        PTransform.mul_inv (hP R), PTransform.mul_one']
  | succ k ih =>
    intro i hi
    obtain ⟨hl, -⟩ := List.getElem?_eq_some_iff.1 hi
    have hi' : J.path[k]? = some (J.path[k]'(by omega)) := List.getElem?_eq_getElem _
    generalize (J.path[k]'_) = i' at hi'
    obtain ⟨ih1, ih2⟩ := ih i' hi'
    have hp := hs.wf.posAt_some (pathList J.path q) (i := k + 1) (j := k) (by rw [hs.par _ hl, if_neg (by omega)]; rfl)
    constructor
    · intro hU
      obtain ⟨j', e1, e2, e3⟩ := ih1 (by omega)
      rw [List.getElem?_append_left hU, ← h.path_up hU, hi] at e2
      cases e2
      have hiU := hi
      rw [h.path_up hU] at hiU
      obtain ⟨j, g1, g2⟩ := h.up _ i hiU
      refine ⟨j, g1, g2, ?_⟩
      have e4 : J.subX mb (k + 1) = (mb.XtAt i').inv := by simp [Jac.subX, h.sign_up hU, h.sign_up (k := k) (by omega), hi']
      rw [hp, hs.pts hr hq hi (h.sign_up hU), if_pos rfl, e4, e3]
      simp only [PTransform.mul_assoc']
      rw [← PTransform.mul_assoc' (mb.XtAt i').inv, PTransform.inv_mul (hX i'), PTransform.one_mul', ← PTransform.mul_assoc' (mb.poseAt q i).inv,
        hpos g1, PTransform.mul_assoc' (mb.poseAt q i), ← PTransform.mul_assoc' (mb.poseAt q i).inv, PTransform.inv_mul (hJ i),
        PTransform.one_mul', PTransform.mul_assoc']
    · intro hU
      have hiV := hi
      rw [h.path_down hU] at hiV
      obtain ⟨j, g1, g2⟩ := h.down _ i hiV
      by_cases hk : U.length ≤ k
      · have e4 : J.subX mb (k + 1) = mb.XtAt i := by simp [Jac.subX, h.sign_down hk (by omega), n1, hi]
        have hj : j = i' := by
          rw [h.path_down hk] at hi'
          have : k + 1 - U.length = k - U.length + 1 := by omega
          rw [this, List.getElem?_cons_succ, hi'] at g2
          exact (Option.some.inj g2).symm
        subst hj
        rw [hp, hs.pts hr hq hi (h.sign_down hU hl), if_neg n1, e4, ih2 hk, hpos g1, PTransform.mul_assoc' (_ * _)]
      · obtain ⟨j', e1, e2, e3⟩ := ih1 (by omega)
        have hkU : k + 1 = U.length := by omega
        rw [hkU, List.getElem?_append_right le_rfl, Nat.sub_self] at e2
        rw [hkU, Nat.sub_self] at g2
        have hj' : c = j' := by simpa using e2
        have hj : c = j := by simpa using g2
        subst hj'
        subst hj
        have e4 : J.subX mb (k + 1) = (mb.XtAt i').inv * mb.XtAt i := by
          simp [Jac.subX, h.sign_down hU hl, h.sign_up (k := k) (by omega), n1, hi, hi']
        have hcc := hc i' i (by
          rw [List.getLast?_eq_getElem?, ← hkU, Nat.add_sub_cancel, ← h.path_up (by omega), hi']) (by
          rw [List.head?_eq_getElem?]
          rw [hkU, Nat.sub_self] at hiV
          exact hiV)
        rw [hp, hs.pts hr hq hi (h.sign_down hU hl), if_neg n1, e4, hcc, e3]
        simp only [PTransform.mul_assoc']
        rw [← PTransform.mul_assoc' (mb.XtAt i').inv, PTransform.inv_mul (hX i'), PTransform.one_mul', hpos g1]
        simp only [PTransform.mul_assoc']

end walk


/-! ### The paths the relative constructor makes -/

theorem upTo_chain {par : Nat → Option Nat} (hpar : ∀ i j, par i = some j → j < i) {c : Nat} (N : Nat) (h : c ∈ pathUp par N) :
    (upTo par c N ++ [c])[0]? = some N ∧
    ∀ k i : Nat, (upTo par c N)[k]? = some i → ∃ j, par i = some j ∧ (upTo par c N ++ [c])[k + 1]? = some j := by
  induction N using Nat.strong_induction_on with
  | _ N ih =>
    by_cases hc : N = c
    · subst hc
      rw [upTo_self]
      exact ⟨rfl, fun k i hi => by simp at hi⟩
    · cases hp : par N with
      | none => rw [mem_pathUp_none hp] at h; exact absurd h.symm hc
      | some m =>
        have hm := hpar N m hp
        rw [mem_pathUp_some hp hm] at h
        obtain ⟨i1, i2⟩ := ih m hm (h.resolve_left (Ne.symm hc))
        rw [upTo_some hc hp hm]
        refine ⟨rfl, fun k i hi => ?_⟩
        cases k with
        | zero =>
          rw [List.getElem?_cons_zero] at hi
          cases hi
          exact ⟨m, hp, by rw [List.cons_append, List.getElem?_cons_succ]; exact i1⟩
        | succ k =>
          rw [List.getElem?_cons_succ] at hi
          obtain ⟨j, g1, g2⟩ := i2 k i hi
          exact ⟨j, g1, by rw [List.cons_append, List.getElem?_cons_succ]; exact g2⟩

theorem upTo_chain_down {par : Nat → Option Nat} (hpar : ∀ i j, par i = some j → j < i) {c N : Nat} (h : c ∈ pathUp par N) :
    ∀ k i : Nat, (upTo par c N).reverse[k]? = some i → ∃ j, par i = some j ∧ (c :: (upTo par c N).reverse)[k]? = some j := by
  intro k i hi
  obtain ⟨-, h2⟩ := upTo_chain hpar N h
  obtain ⟨hk, -⟩ := List.getElem?_eq_some_iff.1 hi
  rw [List.length_reverse] at hk
  rw [List.getElem?_reverse hk] at hi
  obtain ⟨j, g1, g2⟩ := h2 _ i hi
  refine ⟨j, g1, ?_⟩
  have e : c :: (upTo par c N).reverse = (upTo par c N ++ [c]).reverse := by simp
  rw [e, List.getElem?_reverse (by rw [List.length_append, List.length_singleton]; omega), ← g2]
  congr 1
  rw [List.length_append, List.length_singleton]
  omega

theorem Jac.walk_of (wf : mb.WF) {N R c : Nat} (hN : c ∈ pathUp mb.par N) (hR : c ∈ pathUp mb.par R)
    (hp : J.path = upTo mb.par c R ++ (upTo mb.par c N).reverse)
    (hs : J.sign = ((upTo mb.par c R).map fun _ => -1) ++ (upTo mb.par c N).reverse.map fun _ => 1) :
    J.Walk mb R c (upTo mb.par c R) (upTo mb.par c N).reverse :=
  ⟨hp, hs, (upTo_chain wf.par_lt R hR).1, (upTo_chain wf.par_lt R hR).2, upTo_chain_down wf.par_lt hN⟩

end RBDyn
