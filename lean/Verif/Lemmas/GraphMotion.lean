import Verif.Lemmas.GraphPlace

/-! Velocities and accelerations of the bodies of a graph. -/

namespace RBDyn
variable {K : Type} [Scalar K]

/-- The joints that turn about an axis or move along an axis, or do neither. -/
def JointType.OneAxis (t : JointType) : Prop := t = .Rev ∨ t = .Prism ∨ t = .Cylindrical ∨ t = .Fixed

theorem MotionVec.cross_neg (a b : MotionVec K) : a.cross (-b) = -a.cross b := by
  rw [← neg_one_smul K b, MotionVec.cross_smul, neg_one_smul]

theorem applyCols_neg (S : List (MotionVec K)) (a : List K) : applyCols (S.map fun c => (-1 : K) • c) a = -applyCols S a := by
  unfold applyCols
  induction S generalizing a with
  | nil => simp
  | cons c S ih =>
    cases a with
    | nil => simp
    | cons x a =>
      simp only [List.map_cons, List.zipWith_cons_cons, List.sum_cons]
      rw [ih, neg_one_smul, smul_neg, neg_add]

theorem applyCols_fix {X : PTransform K} {S : List (MotionVec K)} (h : ∀ c ∈ S, X.mulMotion c = c) (a : List K) :
    X.mulMotion (applyCols S a) = applyCols S a := by
  unfold applyCols
  induction S generalizing a with
  | nil => simp
  | cons c S ih =>
    cases a with
    | nil => simp
    | cons x a =>
      simp only [List.zipWith_cons_cons, List.sum_cons, PTransform.mulMotion_add, PTransform.mulMotion_smul, h c (by simp)]
      rw [ih fun c hc => h c (by simp [hc])]

namespace Joint

theorem sgn_unit (f : Bool) {a : Vec3 K} (ha : IsUnit3 a) : IsUnit3 (sgn (K := K) f • a) := by
  cases f <;> simpa [sgn, IsUnit3, Vec3.dot] using ha

/-- Such a joint leaves its axis where it is. -/
theorem pose_fixes {j : Joint K} (hj : j.BuiltUnit) (ht : j.type.OneAxis) {q : List K} (hq : ValidParam j.type q) {X : PTransform K}
    (hX : j.pose q = .ok X) : ∀ c ∈ j.S, X.mulMotion c = c := by
  obtain ⟨t, a, f, n, ha, h⟩ := hj.exists_mk
  have key : t.OneAxis → ValidParam t q → (Joint.mk' t a f n : Joint K).pose q = .ok X →
      ∀ c ∈ (Joint.mk' t a f n : Joint K).S, X.mulMotion c = c := by
    intro ht hq hX
    have e1 : ∀ b : Vec3 K, sgn (K := K) f • (⟨b, 0⟩ : MotionVec K) = ⟨sgn (K := K) f • b, 0⟩ := fun b => by ext <;> simp
    have e2 : ∀ b : Vec3 K, sgn (K := K) f • (⟨0, b⟩ : MotionVec K) = ⟨0, sgn (K := K) f • b⟩ := fun b => by ext <;> simp
    rcases ht with rfl | rfl | rfl | rfl
    · obtain ⟨q0, rfl⟩ := List.length_eq_one_iff.1 hq.1
      rw [pose_rev] at hX
      cases hX
      intro c hc
      obtain rfl : c = sgn (K := K) f • ⟨a, 0⟩ := by simpa [mk', mkS, sgn] using hc
      rw [e1]
      simp [PTransform.mulMotion, angleAxis_fixes _ (sgn_unit f ha)]
    · obtain ⟨q0, rfl⟩ := List.length_eq_one_iff.1 hq.1
      rw [pose_prism] at hX
      cases hX
      intro c hc
      obtain rfl : c = sgn (K := K) f • ⟨0, a⟩ := by simpa [mk', mkS, sgn] using hc
      rw [e2]
      simp [PTransform.mulMotion]
    · obtain ⟨q0, q1, rfl⟩ := List.length_eq_two.1 hq.1
      rw [pose_cylindrical] at hX
      cases hX
      intro c hc
      obtain rfl | rfl : c = sgn (K := K) f • ⟨a, 0⟩ ∨ c = sgn (K := K) f • ⟨0, a⟩ := by simpa [mk', mkS, sgn] using hc
      · rw [e1]
        simp [PTransform.mulMotion, angleAxis_fixes _ (sgn_unit f ha), Vec3.smul_cross]
      · rw [e2]
        simp [PTransform.mulMotion, angleAxis_fixes _ (sgn_unit f ha)]
    · intro c hc
      simp [mk', mkS] at hc
  rcases h with rfl | ⟨mn, m, o, rfl⟩
  · exact key ht hq hX
  · rw [pose_makeMimic] at hX
    exact key ht hq hX

theorem flip_S (j : Joint K) : j.flip.S = j.S.map fun c => (-1 : K) • c := by
  unfold flip setForward
  cases j.isForward <;> simp

end Joint

namespace Graph
variable {h : Heap K} {g : Graph} {r : Nat} {d par : Nat → Nat}

/-- The arc `a` of `u` leads away from the root. -/
def Down (r : Nat) (par : Nat → Nat) (u : Nat) (a : Arc K) : Prop := par a.next = u ∧ a.next ≠ r

/-- The joints of links whose direction differs turn about an axis or move along an axis. -/
def OneAxisBetween (h : Heap K) (g : Graph) (D D' : Nat → Arc K → Prop) : Prop :=
  ∀ (u : Nat) (a : Arc K), Link h g u a → (D u a ↔ D' u a) ∨ a.joint.type.OneAxis

/-- `V` gives each body a motion vector in its own frame such that for each link, seen as arc `a` from `u` and as arc `c` from the
other body, the vectors seen from the joint differ by `T u a X`, `X` being the transform of the joint. -/
def Flow (h : Heap K) (g : Graph) (Q : String → List K) (T : Nat → Arc K → PTransform K → MotionVec K) (V : Nat → MotionVec K) : Prop :=
  ∀ (u : Nat) (a c : Arc K) (X : PTransform K), Link h g u a → Link h g a.next c → c.next = u →
    a.joint.pose (Q a.joint.name) = .ok X → c.X.mulMotion (V a.next) = X.mulMotion (a.X.mulMotion (V u)) + T u a X

/-- Two such assignments differ by the motion of one rigid body. -/
theorem Flow.rel (F : Forest h g) (H : RigidGraph h g) {Q : String → List K} (hQ : ValidConf h g Q)
    {W : Nat → PTransform K} (hW : Placement h g Q W) (rW : ∀ x ∈ g.nodes, IsRigid (W x)) {T : Nat → Arc K → PTransform K → MotionVec K}
    {V V' : Nat → MotionVec K} (hV : Flow h g Q T V) (hV' : Flow h g Q T V') {u v : Nat} (hu : u ∈ g.nodes)
    (hr : (simple h g).Reachable u v) : V v - V' v = (W v * (W u).inv).mulMotion (V u - V' u) := by
  obtain ⟨w⟩ := hr
  induction w with
  | nil => rw [PTransform.mul_inv (rW _ hu), PTransform.one_mulMotion]
  | @cons u x v e w ih =>
    have hx := (F.adj_mem e).2
    obtain ⟨a, ha, ea⟩ := F.adj_iff.1 e
    obtain ⟨c, hc, ec⟩ := F.adj_iff.1 e.symm
    subst ea
    obtain ⟨X, hX, -, rX⟩ := F.pair_pose H hQ ha hc ec
    have rc := H.X _ c hc
    have ra := H.X _ a ha
    have e1 := hV u a c X ha hc ec hX
    have e2 := hV' u a c X ha hc ec hX
    have e3 := hW u a c X ha hc ec hX
    have d1 : V a.next - V' a.next = (c.X.inv * (X * a.X)).mulMotion (V u - V' u) := by
      have e5 : X.mulMotion (a.X.mulMotion (V u)) - X.mulMotion (a.X.mulMotion (V' u)) = c.X.mulMotion (V a.next) - c.X.mulMotion (V' a.next) := by
        rw [e1, e2, add_sub_add_right_eq_sub]
      rw [PTransform.mul_mulMotion _ _ _ (rX.mul ra), PTransform.mul_mulMotion _ _ _ ra, PTransform.mulMotion_sub, PTransform.mulMotion_sub,
        e5, PTransform.mulMotion_sub, PTransform.inv_mulMotion_cancel rc, PTransform.inv_mulMotion_cancel rc]
    have d2 : W a.next * (W u).inv = c.X.inv * (X * a.X) := by
      have e4 : c.X.inv * (c.X * W a.next) = W a.next := by
        rw [← PTransform.mul_assoc', PTransform.inv_mul rc, PTransform.one_mul']
      rw [← e4, e3, PTransform.mul_assoc', PTransform.mul_assoc' _ _ (W u).inv, PTransform.mul_inv (rW u hu), PTransform.mul_one']
    rw [ih hx, d1, ← d2, ← PTransform.mul_mulMotion _ _ _ ((rW _ hx).mul (rW _ hu).inv)]
    congr 1
    rw [PTransform.mul_assoc', ← PTransform.mul_assoc' (W a.next).inv, PTransform.inv_mul (rW _ hx), PTransform.one_mul']

theorem Flow.eq (T : Tree h g) (H : RigidGraph h g) {Q : String → List K} (hQ : ValidConf h g Q)
    {W : Nat → PTransform K} (hW : Placement h g Q W) (rW : ∀ x ∈ g.nodes, IsRigid (W x)) {t : Nat → Arc K → PTransform K → MotionVec K}
    {V V' : Nat → MotionVec K} (hV : Flow h g Q t V) (hV' : Flow h g Q t V') {u : Nat} (hu : u ∈ g.nodes) (e : V u = V' u) :
    ∀ v ∈ g.nodes, V v = V' v := by
  intro v hv
  have := hV.rel T.toForest H hQ hW rW hV' hu (T.connected u hu v hv)
  rw [e, sub_self, PTransform.mulMotion_zero] at this
  exact sub_eq_zero.1 this

/-- Equations in the direction away from the root suffice. -/
theorem Flow.of_child (R : Rooted h g r d par) (F : Forest h g) (H : RigidGraph h g) {Q : String → List K} (hQ : ValidConf h g Q)
    {T : Nat → Arc K → PTransform K → MotionVec K} {V : Nat → MotionVec K}
    (hT : ∀ (u : Nat) (a c : Arc K) (X : PTransform K), Link h g u a → Link h g a.next c → c.next = u →
      a.joint.pose (Q a.joint.name) = .ok X → IsRigid X → ¬ Down r par u a → Down r par a.next c →
      T u a X = -X.mulMotion (T a.next c X.inv))
    (hV : ∀ (u : Nat) (a c : Arc K) (X : PTransform K), Link h g u a → Link h g a.next c → c.next = u →
      a.joint.pose (Q a.joint.name) = .ok X → Down r par u a →
      c.X.mulMotion (V a.next) = X.mulMotion (a.X.mulMotion (V u)) + T u a X) : Flow h g Q T V := by
  intro u a c X ha hc ec hX
  by_cases hD : Down r par u a
  · exact hV u a c X ha hc ec hX hD
  rcases R.step u a ha with ⟨-, h1, h2⟩ | ⟨-, h1, h2⟩
  · exact absurd ⟨h1, h2⟩ hD
  · obtain ⟨X', e1, e2, rX⟩ := F.pair_pose H hQ ha hc ec
    rw [hX] at e1
    cases e1
    have hD' : Down r par a.next c := ⟨by rw [ec]; exact h1, by rw [ec]; exact h2⟩
    have k := hV a.next c a X.inv hc (by rw [ec]; exact ha) rfl e2 hD'
    have kt := hT u a c X ha hc ec hX rX hD hD'
    rw [ec] at k
    rw [kt, k, PTransform.mulMotion_add, PTransform.mulMotion_inv_cancel rX, add_neg_cancel_right]

/-! ### The vectors of one `MultiBody` -/

/-- What is known of a `MultiBody` made from the body `r` of the graph. -/
structure Rooting (h : Heap K) (g : Graph) (r : Nat) (d par : Nat → Nat) (J : Joint K) (X0 Xb : PTransform K) (N : List Nat)
    (mb : MultiBody K) : Prop where
  R : Rooted h g r d par
  wf : mb.WF
  rigid : mb.Rigid
  tr : TreeRel h g r par J X0 Xb N (stOf mb)
  perm : N.Perm g.nodes
  Xb : IsRigid Xb

/-- The vector of a body in the frame it has in the graph. -/
def inGraph (h : Heap K) (r : Nat) (par : Nat → Nat) (Xb : PTransform K) (N : List Nat) (f : Nat → MotionVec K) (x : Nat) : MotionVec K :=
  (xf h r par Xb x).inv.mulMotion (f (N.idxOf x))

section
variable {J : Joint K} {X0 Xb : PTransform K} {N : List Nat} {mb : MultiBody K}

theorem Rooting.nodup (G : Rooting h g r d par J X0 Xb N mb) (F : Forest h g) : N.Nodup := G.perm.nodup_iff.2 F.nodes_nodup

theorem Rooting.length (G : Rooting h g r d par J X0 Xb N mb) : mb.bodies.length = N.length := G.tr.nbodies

theorem Rooting.index (G : Rooting h g r d par J X0 Xb N mb) {x : Nat} (hx : x ∈ g.nodes) :
    N[N.idxOf x]? = some x ∧ N.idxOf x < mb.bodies.length := by
  have hm : x ∈ N := G.perm.mem_iff.2 hx
  have hl := List.idxOf_lt_length_of_mem hm
  exact ⟨by rw [List.getElem?_eq_getElem hl, List.getElem_idxOf hl], by rw [G.length]; exact hl⟩

theorem Rooting.xf_rigid (G : Rooting h g r d par J X0 Xb N mb) (F : Forest h g) (H : RigidGraph h g) {x : Nat} (hx : x ∈ g.nodes) :
    IsRigid (xf h r par Xb x) := G.R.xf_rigid F H G.Xb hx

theorem Rooting.xf_inGraph (G : Rooting h g r d par J X0 Xb N mb) (F : Forest h g) (H : RigidGraph h g) (f : Nat → MotionVec K) {x : Nat}
    (hx : x ∈ g.nodes) : (xf h r par Xb x).mulMotion (inGraph h r par Xb N f x) = f (N.idxOf x) :=
  PTransform.mulMotion_inv_cancel (G.xf_rigid F H hx) _

/-- The entry of a child. -/
theorem Rooting.child (G : Rooting h g r d par J X0 Xb N mb) (F : Forest h g) {q : List (List K)} {Q : String → List K}
    (hq : MatchesConf mb q Q) {u : Nat} {a c : Arc K} {X : PTransform K} (ha : Link h g u a) (hc : Link h g a.next c)
    (ec : c.next = u) (hX : a.joint.pose (Q a.joint.name) = .ok X) (hpar : par a.next = u) (hner : a.next ≠ r) :
    N.idxOf a.next ≠ 0 ∧ mb.par (N.idxOf a.next) = some (N.idxOf u) ∧ mb.joints[N.idxOf a.next]? = some a.joint ∧
      mb.ptsAt q (N.idxOf a.next) = X * (a.X * (xf h r par Xb u).inv) ∧ xf h r par Xb a.next = c.X := by
  obtain ⟨hx, -⟩ := G.index (F.link_next ha)
  generalize N.idxOf a.next = i at hx ⊢
  have E := G.tr.entry i _ hx
  obtain ⟨k, a', hk, hki, ha', ea', h1, h2, h3, h4⟩ := E.child hner
  rw [hpar] at ha' hk h4
  obtain rfl := F.arc_unique ha' ha ea'
  have hi0 : i ≠ 0 := by omega
  rw [idxOf_of_getElem? (G.nodup F) hk]
  refine ⟨hi0, ?_, h1, ?_, F.xf_arc hc (by rw [ec, hpar]) hner Xb⟩
  · unfold MultiBody.par
    rw [show mb.pred[i]? = some (k : Int) from h2]
    simp
  · unfold MultiBody.ptsAt MultiBody.poseAt MultiBody.XtAt
    rw [show mb.joints[i]? = _ from h1, hq i a'.joint hi0 h1, show mb.Xt[i]? = _ from h4]
    simp only [hX]
    rfl

/-- A recursion along the joints of the `MultiBody`, seen in the graph. -/
theorem Rooting.flow_child (G : Rooting h g r d par J X0 Xb N mb) (F : Forest h g) (H : RigidGraph h g) {q : List (List K)}
    {Q : String → List K} (hq : MatchesConf mb q Q) {f t : Nat → MotionVec K}
    (hf : ∀ i k, i < mb.bodies.length → mb.par i = some k → f i = (mb.ptsAt q i).mulMotion (f k) + t i)
    {u : Nat} {a c : Arc K} {X : PTransform K} (ha : Link h g u a) (hc : Link h g a.next c)
    (ec : c.next = u) (hX : a.joint.pose (Q a.joint.name) = .ok X) (hpar : par a.next = u) (hner : a.next ≠ r) :
    c.X.mulMotion (inGraph h r par Xb N f a.next) = X.mulMotion (a.X.mulMotion (inGraph h r par Xb N f u)) + t (N.idxOf a.next) := by
  obtain ⟨-, h2, -, h4, h5⟩ := G.child F hq ha hc ec hX hpar hner
  have ru := G.xf_rigid F H ha.mem
  rw [← h5, G.xf_inGraph F H _ (F.link_next ha), hf _ _ (G.index (F.link_next ha)).2 h2, h4,
    PTransform.mul_mulMotion _ _ _ ((H.X _ _ ha).mul ru.inv), PTransform.mul_mulMotion _ _ _ ru.inv]
  rfl

open Classical in
/-- The part of the velocity that a joint adds, seen in the direction `D`. -/
noncomputable def velStep (D : Nat → Arc K → Prop) (A : String → List K) (u : Nat) (a : Arc K) (X : PTransform K) : MotionVec K :=
  if D u a then applyCols a.joint.S (A a.joint.name) else X.mulMotion (applyCols a.joint.S (A a.joint.name))

open Classical in
/-- The part of the acceleration that a joint adds, seen in the direction `D`. -/
noncomputable def accStep (D : Nat → Arc K → Prop) (A AD : String → List K) (V : Nat → MotionVec K) (u : Nat) (a : Arc K) (X : PTransform K) :
    MotionVec K :=
  if D u a then applyCols a.joint.S (AD a.joint.name) + (X.mulMotion (a.X.mulMotion (V u))).cross (applyCols a.joint.S (A a.joint.name))
  else X.mulMotion (applyCols a.joint.S (AD a.joint.name) + (a.X.mulMotion (V u)).cross (applyCols a.joint.S (A a.joint.name)))

theorem Forest.pair_S (F : Forest h g) {u : Nat} {a c : Arc K} (ha : Link h g u a) (hc : Link h g a.next c) (ec : c.next = u)
    (B : String → List K) : applyCols c.joint.S (B c.joint.name) = -applyCols a.joint.S (B a.joint.name) := by
  obtain ⟨h1, h2, -⟩ := F.pair ha hc ec
  rw [h2, h1, Joint.flip_S, applyCols_neg]

theorem fix_S (H : RigidGraph h g) {Q : String → List K} (hQ : ValidConf h g Q) {u : Nat} {a : Arc K}
    {X : PTransform K} (ha : Link h g u a) (O : a.joint.type.OneAxis) (hX : a.joint.pose (Q a.joint.name) = .ok X) (b : List K) :
    X.mulMotion (applyCols a.joint.S b) = applyCols a.joint.S b :=
  applyCols_fix (Joint.pose_fixes (H.joint u a ha) O (hQ u a ha) hX) b

theorem Rooting.jointMotion (_G : Rooting h g r d par J X0 Xb N mb) {a : Arc K} {α : List (List K)} {A : String → List K}
    (hα : MatchesConf mb α A) {i : Nat} (h0 : i ≠ 0) (hj : mb.joints[i]? = some a.joint) :
    mb.jointMotion α i = applyCols a.joint.S (A a.joint.name) := by
  unfold MultiBody.jointMotion MultiBody.SAt
  rw [hj, hα i _ h0 hj]
  rfl

/-- The velocities of the bodies. -/
theorem Rooting.velFlow (G : Rooting h g r d par J X0 Xb N mb) (F : Forest h g) (H : RigidGraph h g)
    {q α : List (List K)} {Q A : String → List K} (hQ : ValidConf h g Q) (hq : MatchesConf mb q Q) (hv : ValidQ mb q)
    (hα : MatchesConf mb α A) : Flow h g Q (velStep (Down r par) A) (inGraph h r par Xb N (mb.velAt q α)) := by
  refine Flow.of_child G.R F H hQ ?_ ?_
  · intro u a c X ha hc ec hX rX hD hD'
    rw [velStep, velStep, if_neg hD, if_pos hD', F.pair_S ha hc ec, PTransform.mulMotion_neg, neg_neg]
  · intro u a c X ha hc ec hX hD
    obtain ⟨h0, -, hj, -⟩ := G.child F hq ha hc ec hX hD.1 hD.2
    rw [G.flow_child F H hq (t := mb.jointMotion α) (fun i k hi hp => G.wf.velAt_some G.rigid hv α hi hp) ha hc ec hX hD.1 hD.2,
      velStep, if_pos hD, G.jointMotion hα h0 hj]

/-- The accelerations of the bodies. -/
theorem Rooting.accFlow (G : Rooting h g r d par J X0 Xb N mb) (F : Forest h g) (H : RigidGraph h g)
    {q α αD : List (List K)} {Q A AD : String → List K} (hQ : ValidConf h g Q) (hq : MatchesConf mb q Q) (hv : ValidQ mb q)
    (hα : MatchesConf mb α A) (hαD : MatchesConf mb αD AD) (a0 : MotionVec K) :
    Flow h g Q (accStep (Down r par) A AD (inGraph h r par Xb N (mb.velAt q α))) (inGraph h r par Xb N (mb.accAt q α αD a0)) := by
  have fv := G.velFlow F H hQ hq hv hα
  refine Flow.of_child G.R F H hQ ?_ ?_
  · intro u a c X ha hc ec hX rX hD hD'
    have e := fv u a c X ha hc ec hX
    rw [velStep, if_neg hD] at e
    rw [accStep, accStep, if_neg hD, if_pos hD', F.pair_S ha hc ec, F.pair_S ha hc ec, e, PTransform.mulMotion_add (X := X.inv),
      PTransform.inv_mulMotion_cancel rX, PTransform.inv_mulMotion_cancel rX, MotionVec.cross_neg, MotionVec.add_cross, MotionVec.cross_self,
      add_zero, ← neg_add, PTransform.mulMotion_neg, neg_neg]
  · intro u a c X ha hc ec hX hD
    obtain ⟨h0, -, hj, -, h5⟩ := G.child F hq ha hc ec hX hD.1 hD.2
    have e := fv u a c X ha hc ec hX
    rw [← h5, G.xf_inGraph F H _ (F.link_next ha), velStep, if_pos hD] at e
    rw [G.flow_child F H hq (t := fun i => mb.jointMotion αD i + (mb.velAt q α i).cross (mb.jointMotion α i))
      (fun i k hi hp => G.wf.accAt_some G.rigid hv α αD a0 hi hp) ha hc ec hX hD.1 hD.2, accStep, if_pos hD]
    simp only [G.jointMotion hα h0 hj, G.jointMotion hαD h0 hj, e, MotionVec.add_cross, MotionVec.cross_self, add_zero]

end

/-- The direction matters only for joints without a single axis. -/
theorem Flow.vel_turn (F : Forest h g) (H : RigidGraph h g) {D D' : Nat → Arc K → Prop} (O : OneAxisBetween h g D D') {Q A : String → List K}
    (hQ : ValidConf h g Q) {V : Nat → MotionVec K} (f : Flow h g Q (velStep D A) V) : Flow h g Q (velStep D' A) V := by
  intro u a c X ha hc ec hX
  rw [f u a c X ha hc ec hX]
  congr 1
  unfold velStep
  rcases O u a ha with e | e
  · by_cases k : D u a
    · rw [if_pos k, if_pos (e.1 k)]
    · rw [if_neg k, if_neg fun k' => k (e.2 k')]
  · rw [fix_S H hQ ha e hX, ite_self, ite_self]

theorem Flow.acc_turn (F : Forest h g) (H : RigidGraph h g) {D D' : Nat → Arc K → Prop} (O : OneAxisBetween h g D D') {Q A AD : String → List K}
    (hQ : ValidConf h g Q) {V B : Nat → MotionVec K} (f : Flow h g Q (accStep D A AD V) B) : Flow h g Q (accStep D' A AD V) B := by
  intro u a c X ha hc ec hX
  rw [f u a c X ha hc ec hX]
  congr 1
  unfold accStep
  rcases O u a ha with e | e
  · by_cases k : D u a
    · rw [if_pos k, if_pos (e.1 k)]
    · rw [if_neg k, if_neg fun k' => k (e.2 k')]
  · obtain ⟨X', e1, -, rX⟩ := F.pair_pose H hQ ha hc ec
    rw [hX] at e1
    cases e1
    rw [PTransform.mulMotion_add (X := X), PTransform.mulMotion_cross rX, fix_S H hQ ha e hX, fix_S H hQ ha e hX, ite_self, ite_self]

end Graph

/-- Joints that have the same name in the two `MultiBody`s but opposite directions turn about an axis or move along an axis. -/
def ReversedOneAxis (mb₁ mb₂ : MultiBody K) : Prop :=
  ∀ (i₁ i₂ : Nat) (j₁ j₂ : Joint K), i₁ ≠ 0 → i₂ ≠ 0 → mb₁.joints[i₁]? = some j₁ → mb₂.joints[i₂]? = some j₂ → j₁.name = j₂.name →
    j₁.isForward ≠ j₂.isForward → j₁.type.OneAxis

end RBDyn
