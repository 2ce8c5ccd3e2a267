import Verif.Lemmas.GraphIso
import Verif.Lemmas.GraphPlace
import Verif.Lemmas.GraphPrune

/-! `fixJoints`. -/

namespace RBDyn
variable {K : Type} [Scalar K]

/-- The direction of a joint whose direction was set. -/
theorem Joint.isForward_setForward (j : Joint K) (d : Bool) : (j.setForward d).isForward = d := by
  cases d
  · have : ((-1 : K) = 1) = False := by simp; norm_num
    simp [isForward, setForward, this]
  · simp [isForward, setForward]

namespace Graph

/-- What `fixJoints` does with the joint of an arc. -/
def fixJ (l : List String) (all : Bool) (j : Joint K) : Joint K :=
  if l.any (fun n => n == j.name || all) then fixedJoint j else j

theorem fixArc_eq (l : List String) (all : Bool) (a : Arc K) : fixArc l all a = ⟨a.X, fixJ l all a.joint, a.next⟩ := by
  unfold fixArc fixJ
  split <;> rfl

theorem fixJ_name (l : List String) (all : Bool) (j : Joint K) : (fixJ l all j).name = j.name := by
  unfold fixJ
  split <;> rfl

theorem fixJ_setForward (l : List String) (all : Bool) (j : Joint K) :
    ∃ j' : Joint K, ∀ d, fixJ l all (j.setForward d) = j'.setForward d := by
  by_cases h : l.any (fun n => n == j.name || all) = true
  · refine ⟨fixedJoint j, fun d => ?_⟩
    unfold fixJ
    have : (j.setForward d).name = j.name := rfl
    rw [this, if_pos h]
    unfold fixedJoint
    rw [Joint.setForward_mk', Joint.isForward_setForward]
    rfl
  · refine ⟨j, fun d => ?_⟩
    unfold fixJ
    have : (j.setForward d).name = j.name := rfl
    rw [this, if_neg h]

theorem fixJ_built (l : List String) (all : Bool) {j : Joint K} (hj : j.Built) : (fixJ l all j).Built := by
  unfold fixJ
  split
  · exact .mk _ _ _ _
  · exact hj

variable {h : Heap K} {g : Graph}

/-- The loop fixing the arcs. -/
theorem fixNode_loop (l : List String) (all : Bool) {N : List Nat} (hnd : N.Nodup)
    (hN : ∀ x ∈ N, ∃ n, h.nodes[x]? = some n) :
    ∃ h', N.foldlM (fixNode l all) h = .ok h' ∧ h'.joints = h.joints ∧ h'.nodes.length = h.nodes.length ∧
      (∀ x ∈ N, ∀ n, h.nodes[x]? = some n →
        h'.nodes[x]? = some ⟨n.body, n.arcs.map (fun a => ⟨a.X, fixJ l all a.joint, a.next⟩)⟩) ∧
      (∀ x, x ∉ N → h'.nodes[x]? = h.nodes[x]?) := by
  induction N generalizing h with
  | nil => exact ⟨h, rfl, rfl, rfl, by simp, fun _ _ => rfl⟩
  | cons p N ih =>
    obtain ⟨n, hn⟩ := hN p (List.mem_cons_self ..)
    obtain ⟨hp, hnd⟩ := List.nodup_cons.1 hnd
    have hlt : p < h.nodes.length := (List.getElem?_eq_some_iff.1 hn).1
    let h1 := h.setArcs p n (n.arcs.map (fixArc l all))
    have o1 : ∀ x, x ≠ p → h1.nodes[x]? = h.nodes[x]? := fun x hx => List.getElem?_set_ne (Ne.symm hx)
    obtain ⟨h', e, ej, el, hin, hout⟩ := ih (h := h1) hnd (fun x hx => by
      rw [o1 x (by rintro rfl; exact hp hx)]
      exact hN x (List.mem_cons_of_mem _ hx))
    refine ⟨h', ?_, ej, el.trans (by simp [h1, Heap.setArcs]), ?_, ?_⟩
    · rw [List.foldlM_cons, fixNode, rd_of_getElem? hn, Res.bind_ok, Res.pure_eq, Res.bind_ok]
      exact e
    · intro x hx m hm
      by_cases hxp : x = p
      · subst hxp
        obtain rfl := Option.some_inj.1 (hn.symm.trans hm)
        rw [hout x hp]
        show (h.nodes.set x _)[x]? = _
        rw [List.getElem?_set_self hlt]
        simp only [List.map_congr_left (fun a _ => fixArc_eq l all a)]
      · have hx' : x ∈ N := (List.mem_cons.1 hx).resolve_left hxp
        exact hin x hx' m ((o1 x hxp).trans hm)
    · intro x hx
      rw [List.mem_cons, not_or] at hx
      rw [hout x hx.2, o1 x hx.1]

/-- The loop over the names. -/
theorem fixNamed_loop (l : List String) (s : GSt K) (hj : ∀ p ∈ s.2.joints, ∃ j, s.1.joints[p]? = some j)
    (hmap : ∀ t p, s.2.jointMap.find t = some p → p ∈ s.2.joints) (hl : ∀ t ∈ l, ∃ p, s.2.jointMap.find t = some p) :
    ∃ s', l.foldlM fixNamed s = .ok s' ∧ s'.2 = s.2 ∧ s'.1.nodes = s.1.nodes ∧
      s.1.joints.length ≤ s'.1.joints.length ∧ ∀ x < s.1.joints.length, s'.1.joints[x]? = s.1.joints[x]? := by
  induction l generalizing s with
  | nil => exact ⟨s, rfl, rfl, rfl, le_rfl, fun _ _ => rfl⟩
  | cons t l ih =>
    obtain ⟨p, hp⟩ := hl t (List.mem_cons_self ..)
    obtain ⟨j, hjp⟩ := hj p (hmap t p hp)
    obtain ⟨s', e, e2, e3, e4, e5⟩ := ih ({ s.1 with joints := s.1.joints ++ [fixedJoint j] }, s.2)
      (fun q hq => by
        obtain ⟨k, hk⟩ := hj q hq
        refine ⟨k, ?_⟩
        show (s.1.joints ++ [fixedJoint j])[q]? = _
        rw [List.getElem?_append_left (List.getElem?_eq_some_iff.1 hk).1, hk])
      hmap (fun u hu => hl u (List.mem_cons_of_mem _ hu))
    have e4 : (s.1.joints ++ [fixedJoint j]).length ≤ s'.1.joints.length := e4
    have e5 : ∀ x < (s.1.joints ++ [fixedJoint j]).length, s'.1.joints[x]? = (s.1.joints ++ [fixedJoint j])[x]? := e5
    rw [List.length_append, List.length_singleton] at e4 e5
    refine ⟨s', ?_, e2, e3, by omega, ?_⟩
    · rw [List.foldlM_cons, fixNamed, getAt_some hp, Res.bind_ok, rd_of_getElem? hjp, Res.bind_ok, Res.pure_eq, Res.bind_ok]
      exact e
    · intro x hx
      rw [e5 x (by omega), List.getElem?_append_left hx]

/-- The loop over all joints. -/
theorem fixAll_loop (s : GSt K) (hj : ∀ p ∈ s.2.joints, ∃ j, s.1.joints[p]? = some j) :
    ∃ s', (List.range s.2.joints.length).foldlM fixAll s = .ok s' ∧ s'.1.nodes = s.1.nodes ∧
      s'.2.nodes = s.2.nodes ∧ s'.2.bodyMap = s.2.bodyMap ∧ s'.2.rootName = s.2.rootName ∧
      s'.2.jointMap = s.2.jointMap ∧ s.1.joints.length ≤ s'.1.joints.length ∧
      (∀ x < s.1.joints.length, s'.1.joints[x]? = s.1.joints[x]?) ∧
      s'.2.joints.length = s.2.joints.length ∧
      ∀ (i p : Nat) (j : Joint K), s.2.joints[i]? = some p → s.1.joints[p]? = some j →
        ∃ p', s'.2.joints[i]? = some p' ∧ s.1.joints.length ≤ p' ∧ s'.1.joints[p']? = some (fixedJoint j) := by
  refine (foldlM_range_inv fixAll (fun k s' => (s'.1.nodes = s.1.nodes ∧
      s'.2.nodes = s.2.nodes ∧ s'.2.bodyMap = s.2.bodyMap ∧ s'.2.rootName = s.2.rootName ∧
      s'.2.jointMap = s.2.jointMap ∧ s.1.joints.length ≤ s'.1.joints.length ∧
      (∀ x < s.1.joints.length, s'.1.joints[x]? = s.1.joints[x]?) ∧
      s'.2.joints.length = s.2.joints.length) ∧ (∀ i, k ≤ i → s'.2.joints[i]? = s.2.joints[i]?) ∧
      ∀ (i p : Nat) (j : Joint K), i < k → s.2.joints[i]? = some p → s.1.joints[p]? = some j →
        ∃ p', s'.2.joints[i]? = some p' ∧ s.1.joints.length ≤ p' ∧ s'.1.joints[p']? = some (fixedJoint j))
      s.2.joints.length s ⟨⟨rfl, rfl, rfl, rfl, rfl, le_rfl, fun _ _ => rfl, rfl⟩, fun _ _ => rfl,
        fun i p j hi => absurd hi (Nat.not_lt_zero i)⟩ ?_).elim ?_
  · rintro i s1 hi ⟨⟨a1, a2, a3, a4, a5, a6, a7, a8⟩, hrest, hdone⟩
    have hp : s.2.joints[i]? = some s.2.joints[i] := List.getElem?_eq_getElem hi
    obtain ⟨j, hjp⟩ := hj _ (List.getElem_mem hi)
    have hlt := (List.getElem?_eq_some_iff.1 hjp).1
    have h1 : rd s1.2.joints i = .ok s.2.joints[i] := rd_of_getElem? ((hrest i le_rfl).trans hp)
    have h2 : rd s1.1.joints s.2.joints[i] = .ok j := rd_of_getElem? ((a7 _ hlt).trans hjp)
    have h3 : wr s1.2.joints i s1.1.joints.length = .ok (s1.2.joints.set i s1.1.joints.length) := wr_ok (by omega)
    refine ⟨({ s1.1 with joints := s1.1.joints ++ [fixedJoint j] },
        { s1.2 with joints := s1.2.joints.set i s1.1.joints.length }),
      by rw [fixAll, h1, Res.bind_ok, h2, Res.bind_ok, h3, Res.bind_ok]; rfl,
      ⟨a1, a2, a3, a4, a5, ?_, ?_, ?_⟩, ?_, ?_⟩
    · simp only [List.length_append, List.length_singleton]; omega
    · intro x hx
      dsimp only
      rw [List.getElem?_append_left (by omega), a7 x hx]
    · dsimp only
      rw [List.length_set, a8]
    · intro k hk
      dsimp only
      rw [List.getElem?_set_ne (by omega), hrest k (by omega)]
    · intro k p j' hk hp' hj'
      dsimp only
      by_cases e : k = i
      · subst e
        obtain rfl := Option.some_inj.1 (hp.symm.trans hp')
        obtain rfl := Option.some_inj.1 (hjp.symm.trans hj')
        refine ⟨s1.1.joints.length, List.getElem?_set_self (by omega), a6, ?_⟩
        rw [List.getElem?_append_right le_rfl, Nat.sub_self]; rfl
      · obtain ⟨p', e1, e2, e3⟩ := hdone k p j' (by omega) hp' hj'
        refine ⟨p', by rw [List.getElem?_set_ne (Ne.symm e)]; exact e1, e2, ?_⟩
        rw [List.getElem?_append_left (List.getElem?_eq_some_iff.1 e3).1, e3]
  · rintro s' ⟨e, ⟨a1, a2, a3, a4, a5, a6, a7, a8⟩, -, hdone⟩
    exact ⟨s', e, a1, a2, a3, a4, a5, a6, a7, a8, fun i p j hp hj =>
      hdone i p j (List.getElem?_eq_some_iff.1 hp).1 hp hj⟩

omit [Scalar K] in
theorem CopyRel.image {h' : Heap K} {g' : Graph} (I : Inv h g) (C : CopyRel h g h' g') :
    Image h g (copyAddr h g) id h' g' where
  sim := ⟨C.iso.cells, I.arcs, C.iso.inj⟩
  nodes := C.iso.nodes
  inv := C.iso.inv
  joints := by
    intro t p hp
    obtain ⟨hpm, j, hj, e⟩ := (I.joint t p).1 hp
    obtain ⟨i, hi, rfl⟩ := List.mem_iff_getElem.1 hpm
    have hi' : i < g'.joints.length := by rw [C.iso.joints]; exact hi
    refine ⟨g'.joints[i], (C.iso.inv.joint t _).2 ⟨List.getElem_mem hi', j, ?_, e⟩⟩
    rw [C.iso.jcells i _ _ (List.getElem?_eq_getElem hi) (List.getElem?_eq_getElem hi'), hj]
  rootName := C.iso.rootName

omit [Scalar K] in
theorem CopyRel.disjoint {h' : Heap K} {g' : Graph} (I : Inv h g) (_ : CopyRel h g h' g') :
    ∀ x ∈ g.nodes, ∀ y ∈ g.nodes, copyAddr h g y ≠ x := by
  intro x hx y _ e
  have h1 := I.node_lt hx
  unfold copyAddr at e
  omega

omit [Scalar K] in
theorem CopyRel.jointMap {h' : Heap K} {g' : Graph} (I : Inv h g) (C : CopyRel h g h' g') {t : String} {p : Nat}
    (hp : g.jointMap.find t = some p) : ∃ p', g'.jointMap.find t = some p' ∧ h.joints.length ≤ p' ∧
      h'.joints[p']? = h.joints[p]? := by
  obtain ⟨hpm, j, hj, e⟩ := (I.joint t p).1 hp
  obtain ⟨i, hi, rfl⟩ := List.mem_iff_getElem.1 hpm
  have hi' : i < g'.joints.length := by rw [C.iso.joints]; exact hi
  have hc := C.iso.jcells i _ _ (List.getElem?_eq_getElem hi) (List.getElem?_eq_getElem hi')
  exact ⟨g'.joints[i], (C.iso.inv.joint t _).2 ⟨List.getElem_mem hi', j, by rw [hc, hj], e⟩,
    C.jfresh _ (List.getElem_mem hi'), hc⟩

theorem Sim.fix {h1 h2 : Heap K} {φ : Nat → Nat} {l : List String} {all : Bool} (S : Sim h g.nodes φ id h1)
    (hin : ∀ x ∈ g.nodes, ∀ n, h1.nodes[φ x]? = some n →
        h2.nodes[φ x]? = some ⟨n.body, n.arcs.map (fun a => ⟨a.X, fixJ l all a.joint, a.next⟩)⟩) :
    Sim h g.nodes φ (fixJ l all) h2 := by
  refine ⟨?_, S.closed, S.inj⟩
  intro x hx n hn
  rw [hin x hx _ (S.cells x hx n hn), List.map_map]
  rfl

/-- `fixJoints` with known names. -/
theorem fixJoints_named (I : Inv h g) {l : List String} (hl : ∀ t ∈ l, ∃ p, g.jointMap.find t = some p) :
    ∃ h' g', fixJoints h g l = .ok (h', g') ∧ Image h g (copyAddr h g) (fixJ l false) h' g' ∧
      (∀ x < h.nodes.length, h'.nodes[x]? = h.nodes[x]?) ∧ (∀ x < h.joints.length, h'.joints[x]? = h.joints[x]?) ∧
      (∀ x ∈ g'.nodes, h.nodes.length ≤ x) ∧
      (∀ (t : String) (p : Nat), g.jointMap.find t = some p → ∃ p', g'.jointMap.find t = some p' ∧
        h'.joints[p']? = h.joints[p]?) := by
  obtain ⟨h1, g1, e1, C⟩ := copy_spec I
  have M := C.image I
  obtain ⟨s2, e2, a1, a2, a3, a4⟩ := fixNamed_loop l (h1, g1) C.iso.inv.joints_get
    (fun t p hp => ((C.iso.inv.joint t p).1 hp).1) (fun t ht => by
      obtain ⟨p, hp⟩ := hl t ht
      exact M.joints t p hp)
  dsimp only at a1 a2 a3 a4
  obtain ⟨h', e3, ej, el, hin, hout⟩ := fixNode_loop (h := s2.1) l false (N := s2.2.nodes)
    (by rw [a1]; exact C.iso.inv.nodes_nodup) (by rw [a1, a2]; exact C.iso.inv.nodes_get)
  rw [a1, a2] at hin
  rw [a1, a2] at hout
  have S : Sim h g.nodes (copyAddr h g) (fixJ l false) h' := M.sim.fix (fun x hx n hn => hin _ (M.mem hx) n hn)
  have hjj : ∀ x < h1.joints.length, h'.joints[x]? = h1.joints[x]? := fun x hx => by rw [ej]; exact a4 x hx
  have hinv : Inv h' g1 := by
    have I1 := C.iso.inv
    refine ⟨I1.nodes_nodup, I1.joints_nodup, ?_, ?_, ?_, ?_, ?_⟩
    · intro t p
      rw [I1.body]
      refine and_congr_right (fun hp => ?_)
      obtain ⟨n, hn⟩ := I1.nodes_get p hp
      rw [hin p hp n hn, hn]
      simp
    · intro t p
      rw [I1.joint]
      exact and_congr_right (fun hp => by rw [hjj p (I1.joint_lt hp)])
    · intro p hp
      obtain ⟨n, hn⟩ := I1.nodes_get p hp
      exact ⟨_, hin p hp n hn⟩
    · intro p hp
      rw [hjj p (I1.joint_lt hp)]
      exact I1.joints_get p hp
    · intro p hp m hm a ha
      obtain ⟨n, hn⟩ := I1.nodes_get p hp
      obtain rfl := Option.some_inj.1 ((hin p hp n hn).symm.trans hm)
      obtain ⟨b, hb, rfl⟩ := List.mem_map.1 ha
      exact I1.arcs p hp n hn b hb
  refine ⟨h', g1, ?_, ⟨S, M.nodes, hinv, M.joints, M.rootName⟩, ?_, ?_, C.fresh, ?_⟩
  · rw [fixJoints, e1, Res.bind_ok, if_neg (by simp), e2, Res.bind_ok]
    dsimp only
    rw [e3, Res.bind_ok, a1]
    rfl
  · intro x hx
    rw [hout x (fun hm => by have := C.fresh x hm; omega), C.low x hx]
  · intro x hx
    have := C.jlen
    rw [hjj x (by omega), C.jlow x hx]
  · intro t p hp
    obtain ⟨p', h1', h2', h3'⟩ := C.jointMap I hp
    exact ⟨p', h1', by rw [hjj p' (C.iso.inv.joint_lt ((C.iso.inv.joint t p').1 h1').1), h3']⟩

/-- `fixJoints` with `fixAllJoints`. -/
theorem fixJoints_all (I : Inv h g) (l : List String) :
    ∃ h' g', fixJoints h g l true = .ok (h', g') ∧ Sim h g.nodes (copyAddr h g) (fixJ l true) h' ∧
      g'.nodes = g.nodes.map (copyAddr h g) ∧ g'.rootName = g.rootName ∧
      (∀ t, g'.bodyMap.find t = (g.bodyMap.find t).map (copyAddr h g)) ∧ g.nodes.length ≤ h'.fuel ∧
      (∀ x < h.nodes.length, h'.nodes[x]? = h.nodes[x]?) ∧ (∀ x < h.joints.length, h'.joints[x]? = h.joints[x]?) ∧
      (∀ x ∈ g'.nodes, h.nodes.length ≤ x) := by
  obtain ⟨h1, g1, e1, C⟩ := copy_spec I
  have M := C.image I
  obtain ⟨s2, e2, a1, a2, a3, a4, a5, a6, a7, -⟩ := fixAll_loop (h1, g1) C.iso.inv.joints_get
  dsimp only at a1 a2 a3 a4 a5 a6 a7
  obtain ⟨h', e3, ej, el, hin, hout⟩ := fixNode_loop (h := s2.1) l true (N := s2.2.nodes)
    (by rw [a2]; exact C.iso.inv.nodes_nodup) (by rw [a2, a1]; exact C.iso.inv.nodes_get)
  rw [a2, a1] at hin
  rw [a2, a1] at hout
  have S : Sim h g.nodes (copyAddr h g) (fixJ l true) h' := M.sim.fix (fun x hx n hn => hin _ (M.mem hx) n hn)
  refine ⟨h', s2.2, ?_, S, a2.trans M.nodes, a4.trans M.rootName, ?_, ?_, ?_, ?_, ?_⟩
  · rw [fixJoints, e1, Res.bind_ok, if_pos rfl, e2, Res.bind_ok]
    dsimp only
    rw [e3, Res.bind_ok]
    rfl
  · rw [a3]; exact M.body_find I
  · have hle := C.iso.inv.nodes_length_le
    rw [M.nodes, List.length_map] at hle
    rw [a1] at el
    unfold Heap.fuel
    rw [el]
    nlinarith [Nat.zero_le h'.nrArcs, Nat.zero_le h1.nodes.length,
      Nat.zero_le (h1.nodes.length * h'.nrArcs), Nat.zero_le (h1.nodes.length * h1.nodes.length)]
  · intro x hx
    rw [hout x (fun hm => by have := C.fresh x hm; omega), C.low x hx]
  · intro x hx
    have := C.jlen
    rw [ej, a7 x (by omega), C.jlow x hx]
  · rw [a2]; exact C.fresh

end Graph
end RBDyn
