import Verif.Lemmas.GraphMB
import Verif.Lemmas.Kinematics

/-! Placements of the bodies of a graph in space. -/

namespace RBDyn
variable {K : Type} [Scalar K]

/-! ### The two directions of a joint -/

namespace Joint

theorem setForward_setForward (j : Joint K) (d e : Bool) : (j.setForward d).setForward e = j.setForward e := by
  have hf : (j.setForward d).isForward = d := by
    cases d
    · have : ((-1 : K) = 1) = False := by simp; norm_num
      simp [isForward, setForward, this]
    · simp [isForward, setForward]
  have hS : (j.S.map (fun c => (-1 : K) • c)).map (fun c => (-1 : K) • c) = j.S := by
    rw [List.map_map]
    conv_rhs => rw [← List.map_id j.S]
    apply List.map_congr_left
    intro c _
    simp
  have key : (if (e != d) = true then
      (if (d != j.isForward) = true then j.S.map (fun c => (-1 : K) • c) else j.S).map (fun c => (-1 : K) • c)
      else (if (d != j.isForward) = true then j.S.map (fun c => (-1 : K) • c) else j.S)) =
      (if (e != j.isForward) = true then j.S.map (fun c => (-1 : K) • c) else j.S) := by
    cases e <;> cases d <;> cases j.isForward <;> simp [hS]
  show ({ (j.setForward d) with S := _, dir := _ } : Joint K) = _
  rw [hf]
  unfold setForward
  simp only [key]

theorem Built.setForward_isForward {j : Joint K} (hj : j.Built) : j.setForward j.isForward = j := by
  obtain ⟨t, a, f, n, h⟩ := hj.exists_mk
  have e : (Joint.mk' t a f n : Joint K).isForward = f := Joint.isForward_mk' ..
  rcases h with rfl | ⟨mn, m, o, rfl⟩
  · rw [e, setForward_mk']
  · have : ((Joint.mk' t a f n).makeMimic mn m o).isForward = (Joint.mk' t a f n : Joint K).isForward := rfl
    rw [setForward_makeMimic, this, e, setForward_mk']

/-- `j` in the other direction. -/
def flip (j : Joint K) : Joint K := j.setForward (!j.isForward)

theorem flip_setForward (j : Joint K) (d : Bool) : (j.setForward d).flip = j.setForward (!d) := by
  have hf : (j.setForward d).isForward = d := by
    cases d
    · have : ((-1 : K) = 1) = False := by simp; norm_num
      simp [isForward, setForward, this]
    · simp [isForward, setForward]
  rw [flip, hf, setForward_setForward]

/-- The two directions have inverse poses. -/
theorem flip_pose {j : Joint K} (hj : j.BuiltUnit) {q : List K} (hq : ValidParam j.type q) :
    ∃ X, j.pose q = .ok X ∧ j.flip.pose q = .ok X.inv ∧ IsRigid X := by
  obtain ⟨t, a, f, n, ha, h⟩ := hj.exists_mk
  have key : ∀ hq' : ValidParam t q, ∃ X, (Joint.mk' t a f n : Joint K).pose q = .ok X ∧
      (Joint.mk' t a (!f) n : Joint K).pose q = .ok X.inv ∧ IsRigid X := by
    intro hq'
    obtain ⟨X, e1, e2⟩ := Joint.pose_mk'_reverse ha n n hq'
    obtain ⟨X', e1', hX'⟩ : ∃ X', (Joint.mk' t a true n : Joint K).pose q = .ok X' ∧ IsRigid X' := by
      obtain ⟨X', h1, h2⟩ := Joint.pose_mk'_rigid ha true n hq'
      exact ⟨X', h1, h2⟩
    rw [e1] at e1'
    cases e1'
    cases f
    · exact ⟨X.inv, e2, by rw [Bool.not_false, e1, PTransform.inv_inv _ hX'], hX'.inv⟩
    · exact ⟨X, e1, e2, hX'⟩
  have e : (Joint.mk' t a f n : Joint K).isForward = f := Joint.isForward_mk' ..
  rcases h with rfl | ⟨mn, m, o, rfl⟩
  · rw [Joint.flip, e, Joint.setForward_mk']
    exact key hq
  · have : ((Joint.mk' t a f n).makeMimic mn m o).isForward = (Joint.mk' t a f n : Joint K).isForward := rfl
    rw [Joint.flip, this, e, Joint.setForward_makeMimic, Joint.setForward_mk', Joint.pose_makeMimic, Joint.pose_makeMimic]
    exact key hq

end Joint

namespace Graph
variable {h : Heap K} {g : Graph} {r : Nat} {d par : Nat → Nat}

/-- The links have rigid static transforms and joints with unit axes. -/
structure RigidGraph (h : Heap K) (g : Graph) : Prop where
  joint : ∀ (u : Nat) (a : Arc K), Link h g u a → a.joint.BuiltUnit
  X : ∀ (u : Nat) (a : Arc K), Link h g u a → IsRigid a.X

theorem RigidGraph.built (H : RigidGraph h g) : BuiltArcs h g := fun u a ha => (H.joint u a ha).built

/-- `Q` gives a valid configuration to each joint of a link, by name. -/
def ValidConf (h : Heap K) (g : Graph) (Q : String → List K) : Prop :=
  ∀ (u : Nat) (a : Arc K), Link h g u a → ValidParam a.joint.type (Q a.joint.name)

/-- `W` places the frames of the bodies in space in agreement with the links: for a link seen as arc `a` from `u` and as
arc `c` from the other body, going from the world to `u`, to the joint and through the joint gives the same frame as going
to the other body and to the joint. -/
def Placement (h : Heap K) (g : Graph) (Q : String → List K) (W : Nat → PTransform K) : Prop :=
  ∀ (u : Nat) (a c : Arc K) (X : PTransform K), Link h g u a → Link h g a.next c → c.next = u →
    a.joint.pose (Q a.joint.name) = .ok X → c.X * W a.next = X * a.X * W u

theorem Forest.pair (F : Forest h g) {u : Nat} {a c : Arc K} (ha : Link h g u a) (hc : Link h g a.next c)
    (e : c.next = u) : c.joint = a.joint.flip ∧ c.joint.name = a.joint.name ∧ c.joint.type = a.joint.type := by
  obtain ⟨b, hb, eb, j, d, h1, h2⟩ := F.paired u a ha
  obtain rfl : b = c := F.arc_unique hb hc (eb.trans e.symm)
  rw [h1, h2, Joint.flip_setForward]
  exact ⟨rfl, rfl, rfl⟩

/-- The poses of the two views of a link are inverse. -/
theorem Forest.pair_pose (F : Forest h g) (H : RigidGraph h g) {Q : String → List K} (hQ : ValidConf h g Q) {u : Nat}
    {a c : Arc K} (ha : Link h g u a) (hc : Link h g a.next c) (e : c.next = u) :
    ∃ X, a.joint.pose (Q a.joint.name) = .ok X ∧ c.joint.pose (Q c.joint.name) = .ok X.inv ∧ IsRigid X := by
  obtain ⟨h1, h2, -⟩ := F.pair ha hc e
  rw [h2, h1]
  exact Joint.flip_pose (H.joint u a ha) (hQ u a ha)

/-- Two placements agree on the relative position of connected bodies. -/
theorem Placement.rel (F : Forest h g) (H : RigidGraph h g) {Q : String → List K} (hQ : ValidConf h g Q)
    {W W' : Nat → PTransform K} (hW : Placement h g Q W) (hW' : Placement h g Q W')
    (rW : ∀ x ∈ g.nodes, IsRigid (W x)) (rW' : ∀ x ∈ g.nodes, IsRigid (W' x)) {u v : Nat} (hu : u ∈ g.nodes)
    (hr : (simple h g).Reachable u v) : W v * (W u).inv = W' v * (W' u).inv := by
  obtain ⟨w⟩ := hr
  have step : ∀ {W : Nat → PTransform K}, Placement h g Q W → (∀ x ∈ g.nodes, IsRigid (W x)) →
      ∀ {u v : Nat} {a c : Arc K} {X : PTransform K}, Link h g u a → a.next = v → Link h g v c → c.next = u →
        a.joint.pose (Q a.joint.name) = .ok X → W v * (W u).inv = c.X.inv * (X * a.X) := by
    rintro W hW rW u v a c X ha rfl hc ec hX
    have e := hW u a c X ha hc ec hX
    have e2 : c.X.inv * (c.X * W a.next) = W a.next := by
      rw [← PTransform.mul_assoc', PTransform.inv_mul (H.X _ c hc), PTransform.one_mul']
    rw [← e2, e, PTransform.mul_assoc', PTransform.mul_assoc' _ _ (W u).inv, PTransform.mul_inv (rW u ha.mem),
      PTransform.mul_one']
  have comp : ∀ {A B C : PTransform K}, IsRigid B → A * B.inv * (B * C.inv) = A * C.inv := by
    intro A B C hB
    rw [PTransform.mul_assoc', ← PTransform.mul_assoc' B.inv, PTransform.inv_mul hB, PTransform.one_mul']
  induction w with
  | nil => rw [PTransform.mul_inv (rW _ hu), PTransform.mul_inv (rW' _ hu)]
  | @cons u x v e w ih =>
    have hx := (F.adj_mem e).2
    obtain ⟨a, ha, ea⟩ := F.adj_iff.1 e
    obtain ⟨c, hc, ec⟩ := F.adj_iff.1 e.symm
    obtain ⟨X, hX, -⟩ := F.pair_pose H hQ ha (by rw [ea]; exact hc) ec
    rw [← comp (A := W v) (rW x hx), ← comp (A := W' v) (rW' x hx), ih hx, step hW rW ha ea hc ec hX,
      step hW' rW' ha ea hc ec hX]

/-- The joint positions of the `MultiBody` are those of `Q`, except for the root joint. -/
def MatchesConf (mb : MultiBody K) (q : List (List K)) (Q : String → List K) : Prop :=
  ∀ (i : Nat) (j : Joint K), i ≠ 0 → mb.joints[i]? = some j → q[i]? = some (Q j.name)

/-- The frames of the bodies of the graph according to forward kinematics: base transform times body pose. -/
def fkPlace (h : Heap K) (r : Nat) (par : Nat → Nat) (Xb : PTransform K) (N : List Nat) (mb : MultiBody K)
    (q : List (List K)) (x : Nat) : PTransform K := (xf h r par Xb x).inv * mb.posAt q (N.idxOf x)

theorem Rooted.xf_rigid (R : Rooted h g r d par) (F : Forest h g) (H : RigidGraph h g) {Xb : PTransform K}
    (hXb : IsRigid Xb) {x : Nat} (hx : x ∈ g.nodes) : IsRigid (xf h r par Xb x) := by
  by_cases hxr : x = r
  · rw [hxr, xf_root]; exact hXb
  · obtain ⟨b, hb, eb, -⟩ := R.up x hx hxr
    rw [F.xf_arc hb eb hxr]
    exact H.X x b hb

theorem idxOf_of_getElem? {N : List Nat} (hN : N.Nodup) {k x : Nat} (hk : N[k]? = some x) : N.idxOf x = k := by
  obtain ⟨h1, rfl⟩ := List.getElem?_eq_some_iff.1 hk
  exact hN.idxOf_getElem k h1

theorem fk_placement (R : Rooted h g r d par) (F : Forest h g) (H : RigidGraph h g) {J : Joint K}
    {X0 Xb : PTransform K} {N : List Nat} {mb : MultiBody K} (wf : mb.WF)
    (tr : TreeRel h g r par J X0 Xb N (stOf mb)) (hN : N.Perm g.nodes)
    {q : List (List K)} {Q : String → List K} (hQ : ValidConf h g Q) (hq : MatchesConf mb q Q) :
    Placement h g Q (fkPlace h r par Xb N mb q) := by
  have hnd : N.Nodup := hN.nodup_iff.2 F.nodes_nodup
  have child : ∀ (u : Nat) (a c : Arc K) (X : PTransform K), Link h g u a → Link h g a.next c → c.next = u →
      a.joint.pose (Q a.joint.name) = .ok X → par a.next = u → a.next ≠ r →
      c.X * fkPlace h r par Xb N mb q a.next = X * a.X * fkPlace h r par Xb N mb q u := by
    intro u a c X ha hc ec hX hpar hner
    have hxm : a.next ∈ N := hN.mem_iff.2 (F.link_next ha)
    obtain ⟨i, hi, ei⟩ := List.mem_iff_getElem.1 hxm
    have hx : N[i]? = some a.next := by rw [List.getElem?_eq_getElem hi, ei]
    have E := tr.entry i _ hx
    obtain ⟨k, a', hk, hki, ha', ea', h1, h2, h3, h4⟩ := E.child hner
    rw [hpar] at ha' hk h4
    obtain rfl := F.arc_unique ha' ha ea'
    have hi0 : i ≠ 0 := by omega
    have hpi : mb.par i = some k := by
      unfold MultiBody.par
      rw [show mb.pred[i]? = some (k : Int) from h2]
      simp
    have hpts : mb.ptsAt q i = X * (a'.X * (xf h r par Xb u).inv) := by
      unfold MultiBody.ptsAt MultiBody.poseAt MultiBody.XtAt
      rw [show mb.joints[i]? = _ from h1, hq i a'.joint hi0 h1, show mb.Xt[i]? = _ from h4]
      simp only [hX]
      rfl
    have hxf : xf h r par Xb a'.next = c.X := F.xf_arc hc (by rw [ec, hpar]) hner Xb
    unfold fkPlace
    rw [idxOf_of_getElem? hnd hx, idxOf_of_getElem? hnd hk, hxf, ← PTransform.mul_assoc' c.X,
      PTransform.mul_inv (H.X _ c hc), PTransform.one_mul', wf.posAt_some q hpi, hpts]
    simp only [PTransform.mul_assoc']
  intro u a c X ha hc ec hX
  rcases R.step u a ha with ⟨-, h1, h2⟩ | ⟨-, h1, h2⟩
  · exact child u a c X ha hc ec hX h1 h2
  · obtain ⟨X', e1, e2, rX⟩ := F.pair_pose H hQ ha hc ec
    rw [hX] at e1
    cases e1
    have := child a.next c a X.inv hc (by rw [ec]; exact ha) rfl e2 (by rw [ec]; exact h1) (by rw [ec]; exact h2)
    rw [ec] at this
    rw [PTransform.mul_assoc' X, this, PTransform.mul_assoc' X.inv, ← PTransform.mul_assoc' X, PTransform.mul_inv rX,
      PTransform.one_mul']

end Graph
end RBDyn
