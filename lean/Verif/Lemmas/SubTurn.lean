import Verif.Lemmas.SubMB

/-! The robot of a relative path that turns, when the static transforms at the turn do not commute. -/

namespace RBDyn

variable {K : Type} [Scalar K] {mb : MultiBody K} {J : Jac K} {R c : Nat} {U V : List Nat}

/-- The bodies on the way up are at the base of their joint. -/
theorem Jac.Walk.pos_up (h : J.Walk mb R c U V) {sub : MultiBody K} (hs : J.SubOf mb sub) (wf : mb.WF) (hr : mb.Rigid) {q : List (List K)}
    (hq : ValidQ mb q) :
    ∀ k i : Nat, J.path[k]? = some i → k < U.length → ∃ j, mb.par i = some j ∧ (U ++ [c])[k + 1]? = some j ∧
        sub.posAt (pathList J.path q) k = mb.XtAt i * mb.posAt q j * (mb.posAt q R).inv := by
  have hX : ∀ i, IsRigid (mb.XtAt i) := fun i => by
    unfold MultiBody.XtAt
    cases e : mb.Xt[i]? with
    | none => exact IsRigid.one
    | some X => exact hr.Xt X (List.mem_of_getElem? e)
  have hP := fun i => mb.posAt_rigid hr hq i
  have hJ := fun i => mb.poseAt_rigid hr hq i
  have hpos : ∀ {i j}, mb.par i = some j → mb.posAt q i = mb.poseAt q i * mb.XtAt i * mb.posAt q j := fun e => wf.posAt_some q e
  have n1 : (1 : K) ≠ -1 := neg_one_ne_one'
  intro k
  induction k with
  | zero =>
    intro i hi
    obtain ⟨hl, -⟩ := List.getElem?_eq_some_iff.1 hi
    have hp := hs.wf.posAt_none (pathList J.path q) (i := 0) (by rw [hs.par 0 hl, if_pos rfl])
    intro hU
    have hiU := hi
    rw [h.path_up hU] at hiU
    have hR : i = R := by
      have := h.start
      rw [List.getElem?_append_left hU, hiU] at this
      exact Option.some.inj this
    obtain ⟨j, e1, e2⟩ := h.up 0 i hiU
    refine ⟨j, e1, e2, ?_⟩
    rw [hp, hs.pts hr hq hi (h.sign_up hU), if_pos rfl]
    have : J.subX mb 0 = 1 := by simp [Jac.subX, h.sign_up hU]
    have key : mb.XtAt i * mb.posAt q j = (mb.poseAt q i).inv * mb.posAt q i := by
      rw [hpos e1, PTransform.mul_assoc' (mb.poseAt q i), ← PTransform.mul_assoc' (mb.poseAt q i).inv, PTransform.inv_mul (hJ i),
        PTransform.one_mul']
    rw [this, PTransform.mul_one', ← hR, key, PTransform.mul_assoc', PTransform.mul_inv (hP i), PTransform.mul_one']
  | succ k ih =>
    intro i hi
    obtain ⟨hl, -⟩ := List.getElem?_eq_some_iff.1 hi
    have hi' : J.path[k]? = some (J.path[k]'(by omega)) := List.getElem?_eq_getElem _
    generalize (J.path[k]'_) = i' at hi'
    have ih1 := ih i' hi'
    have hp := hs.wf.posAt_some (pathList J.path q) (i := k + 1) (j := k) (by rw [hs.par _ hl, if_neg (by omega)]; rfl)
    intro hU
    obtain ⟨j', e1, e2, e3⟩ := ih1 (by omega)
    rw [List.getElem?_append_left hU, ← h.path_up hU, hi] at e2
    cases e2
    have hiU := hi
    rw [h.path_up hU] at hiU
    obtain ⟨j, g1, g2⟩ := h.up _ i hiU
    refine ⟨j, g1, g2, ?_⟩
    have e4 : J.subX mb (k + 1) = (mb.XtAt i').inv := by simp [Jac.subX, h.sign_up hU, h.sign_up (k := k) (by omega), hi']
    rw [hp, hs.pts hr hq hi (h.sign_up hU), if_pos rfl, e4, e3]
    simp only [PTransform.mul_assoc']
    rw [← PTransform.mul_assoc' (mb.XtAt i').inv, PTransform.inv_mul (hX i'), PTransform.one_mul', ← PTransform.mul_assoc' (mb.poseAt q i).inv,
      hpos g1, PTransform.mul_assoc' (mb.poseAt q i), ← PTransform.mul_assoc' (mb.poseAt q i).inv, PTransform.inv_mul (hJ i),
      PTransform.one_mul', PTransform.mul_assoc']

/-- If one body on the way down is where it should be, the two static transforms at the turn commute. -/
theorem Jac.Walk.commute (h : J.Walk mb R c U V) {sub : MultiBody K} (hs : J.SubOf mb sub) (wf : mb.WF) (hr : mb.Rigid) {q : List (List K)}
    (hq : ValidQ mb q) {u v : Nat} (hu : U.getLast? = some u) (hv : V.head? = some v) :
    ∀ k i : Nat, J.path[k]? = some i → U.length ≤ k → sub.posAt (pathList J.path q) k = mb.posAt q i * (mb.posAt q R).inv →
      (mb.XtAt u).inv * mb.XtAt v = mb.XtAt v * (mb.XtAt u).inv := by
  have hX : ∀ i, IsRigid (mb.XtAt i) := fun i => by
    unfold MultiBody.XtAt
    cases e : mb.Xt[i]? with
    | none => exact IsRigid.one
    | some X => exact hr.Xt X (List.mem_of_getElem? e)
  have hP := fun i => mb.posAt_rigid hr hq i
  have hJ := fun i => mb.poseAt_rigid hr hq i
  have hpos : ∀ {i j}, mb.par i = some j → mb.posAt q i = mb.poseAt q i * mb.XtAt i * mb.posAt q j := fun e => wf.posAt_some q e
  have n1 : (1 : K) ≠ -1 := neg_one_ne_one'
  have n1 : (1 : K) ≠ -1 := neg_one_ne_one'
  have cancel : ∀ {A B C : PTransform K}, IsRigid A → A * B = A * C → B = C := fun {A B C} hA e => by
    have := congrArg (A.inv * ·) e
    simpa only [← PTransform.mul_assoc', PTransform.inv_mul hA, PTransform.one_mul'] using this
  have hU0 : U ≠ [] := by rintro rfl; cases hu
  have hUl : 0 < U.length := List.length_pos_iff.2 hU0
  intro k
  induction k with
  | zero => intro i _ hU; omega
  | succ k ih =>
    intro i hi hU e
    obtain ⟨hl, -⟩ := List.getElem?_eq_some_iff.1 hi
    have hi' : J.path[k]? = some (J.path[k]'(by omega)) := List.getElem?_eq_getElem _
    generalize (J.path[k]'_) = i' at hi'
    have hp := hs.wf.posAt_some (pathList J.path q) (i := k + 1) (j := k) (by rw [hs.par _ hl, if_neg (by omega)]; rfl)
    have hiV := hi
    rw [h.path_down hU] at hiV
    obtain ⟨j, g1, g2⟩ := h.down _ i hiV
    by_cases hk : U.length ≤ k
    · have e4 : J.subX mb (k + 1) = mb.XtAt i := by simp [Jac.subX, h.sign_down hk (by omega), n1, hi]
      have hj : j = i' := by
        rw [h.path_down hk] at hi'
        have : k + 1 - U.length = k - U.length + 1 := by omega
        rw [this, List.getElem?_cons_succ, hi'] at g2
        exact (Option.some.inj g2).symm
      subst hj
      rw [hp, hs.pts hr hq hi (h.sign_down hU hl), if_neg n1, e4, hpos g1, PTransform.mul_assoc' (_ * _)] at e
      exact ih j hi' hk (cancel ((hJ i).mul (hX i)) e)
    · obtain ⟨j', e1, e2, e3⟩ := h.pos_up hs wf hr hq k i' hi' (by omega)
      have hkU : k + 1 = U.length := by omega
      rw [hkU, List.getElem?_append_right le_rfl, Nat.sub_self] at e2
      rw [hkU, Nat.sub_self] at g2 hiV
      have hj' : c = j' := by simpa using e2
      have hj : c = j := by simpa using g2
      subst hj'
      subst hj
      have e4 : J.subX mb (k + 1) = (mb.XtAt i').inv * mb.XtAt i := by
        simp [Jac.subX, h.sign_down hU hl, h.sign_up (k := k) (by omega), n1, hi, hi']
      have hu' : u = i' := by
        rw [List.getLast?_eq_getElem?, ← hkU, Nat.add_sub_cancel, ← h.path_up (by omega), hi'] at hu
        exact (Option.some.inj hu).symm
      have hv' : v = i := by
        rw [List.head?_eq_getElem?, hiV] at hv
        exact (Option.some.inj hv).symm
      subst hu' hv'
      rw [hp, hs.pts hr hq hi (h.sign_down hU hl), if_neg n1, e4, e3, hpos g1] at e
      simp only [PTransform.mul_assoc'] at e
      have e5 := cancel (hJ v) e
      set P := mb.posAt q c * (mb.posAt q R).inv with hPd
      have hPr : IsRigid P := (hP c).mul (hP R).inv
      have e6 := congrArg (· * P.inv) e5
      simp only [PTransform.mul_assoc', PTransform.mul_inv hPr, PTransform.mul_one'] at e6
      have e7 := congrArg (· * (mb.XtAt u).inv) e6
      simp only [PTransform.mul_assoc', PTransform.mul_inv (hX u), PTransform.mul_one'] at e7
      exact e7

theorem upTo_getLast {par : Nat → Option Nat} (hpar : ∀ i j, par i = some j → j < i) {u c : Nat} (huc : par u = some c) (N : Nat)
    (hu : u ∈ pathUp par N) : (upTo par c N).getLast? = some u := by
  have hcu := hpar u c huc
  induction N using Nat.strong_induction_on with
  | _ N ih =>
    by_cases hN : u = N
    · subst hN
      rw [upTo_some (by omega) huc hcu, upTo_self]
      rfl
    · have hlt : u < N := lt_of_le_of_ne (le_of_mem_pathUp hu) hN
      cases e : par N with
      | none =>
        rw [pathUp_none e, List.mem_singleton] at hu
        exact absurd hu hN
      | some k =>
        have hk := hpar N k e
        rw [pathUp_some e hk, List.mem_cons] at hu
        have := ih k hk (hu.resolve_left hN)
        rw [upTo_some (by omega) e hk, List.getLast?_cons, this]
        rfl

end RBDyn
