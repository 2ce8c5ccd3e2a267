import Verif.Lemmas.JacRel

/-! Derivatives, velocities and normal accelerations of relative Jacobians. -/

namespace RBDyn
variable {K : Type} [Scalar K] {mb : MultiBody K}
open scoped Mat3

section eqs
variable {mbc : MBC K} {J : Jac K} {N R : Nat} {p : Vec3 K}

theorem Jac.Rel.bodyJacobianDot_eq (wf : mb.WF) (hv : mbc.VelReady mb) (h : J.Rel mb N R p) :
    J.bodyJacobianDot mb mbc = .ok { J with jacDot := mb.homCols J.path (mb.bdotHom mbc.q mbc.alpha N p) } := by
  unfold Jac.bodyJacobianDot
  simp only [h.back, Res.bind_ok, hv.rd_pos h.isBody, hv.rd_vB h.isBody, h.point]
  rw [fillCols_eq' wf J.path _ (fun x a => mb.bdotHom mbc.q mbc.alpha N p (J.path.getD x 0) ((mb.SAt (J.path.getD x 0)).getD a 0)) J.jacDot
    h.path h.jacDot]
  · rfl
  · intro x hx
    have hi := h.path _ (List.getElem_mem hx)
    refine ⟨_, by simp only [hv.rd_pos hi, hv.rd_vB hi, Res.bind_ok, Res.pure_eq]; rfl, fun a ha old => ?_⟩
    simp only [hv.rd_S hi, Res.bind_ok, wf.rd_SAt hi ha, Res.pure_eq, List.getD_eq_getElem?_getD,
      List.getElem?_eq_getElem hx, Option.getD_some]
    rfl

theorem Jac.Rel.jacobianDot_eq (wf : mb.WF) (hv : mbc.VelReady mb) (h : J.Rel mb N R p) :
    J.jacobianDot mb mbc = .ok { J with jacDot := mb.homCols J.path (mb.dotHom mbc.q mbc.alpha N p) } := by
  unfold Jac.jacobianDot
  simp only [h.back, Res.bind_ok, hv.rd_pos h.isBody, hv.rd_vB h.isBody, hv.rd_vW h.isBody, h.point]
  rw [fillCols_eq' wf J.path _ (fun x a => mb.dotHom mbc.q mbc.alpha N p (J.path.getD x 0) ((mb.SAt (J.path.getD x 0)).getD a 0)) J.jacDot
    h.path h.jacDot]
  · rfl
  · intro x hx
    have hi := h.path _ (List.getElem_mem hx)
    refine ⟨_, by simp only [hv.rd_pos hi, hv.rd_vB hi, Res.bind_ok, Res.pure_eq]; rfl, fun a ha old => ?_⟩
    simp only [hv.rd_S hi, Res.bind_ok, wf.rd_SAt hi ha, Res.pure_eq, List.getD_eq_getElem?_getD,
      List.getElem?_eq_getElem hx, Option.getD_some]
    rfl

end eqs

/-! ### Signs of columns -/

/-- The sign of the joint to which each column belongs. -/
def Jac.colSign (J : Jac K) (mb : MultiBody K) : List K :=
  (List.range J.path.length).flatMap fun x => List.replicate (mb.dofAt (J.path.getD x 0)) (J.sign.getD x 0)

theorem Jac.colSign_eq (J : Jac K) : J.colSign mb = mb.pathCols J.path (fun x _ => J.sign.getD x 0) J.path.length := by
  unfold Jac.colSign MultiBody.pathCols
  congr 1
  funext x
  rw [List.map_const', List.length_range]

/-- The columns of a path one by one. -/
theorem pathColsOf_getD {α : Type} {path : List Nat} (g : Nat → Nat → α) (d : α) (c : Nat) {k : Nat} (hk : k < path.length) :
    (mb.pathCols path g (k + 1)).getD c d =
      if c < mb.colOff path k then (mb.pathCols path g k).getD c d
      else if c - mb.colOff path k < mb.dofAt path[k] then g k (c - mb.colOff path k) else d := by
  rw [mb.pathCols_succ path g hk, List.getD_eq_getElem?_getD]
  have hl := mb.pathCols_length path g (by omega : k ≤ path.length)
  split
  · rw [List.getElem?_append_left (by omega), List.getD_eq_getElem?_getD]
  · rw [List.getElem?_append_right (by omega), hl]
    split
    · rename_i h2
      rw [range_map_getElem? h2, Option.getD_some]
    · rename_i h2
      rw [List.getElem?_eq_none (by simp; omega), Option.getD_none]

theorem pathCols_smul {path : List Nat} (s : Nat → K) (g : Nat → Nat → MotionVec K) (c : Nat) :
    (mb.pathCols path (fun x a => s x • g x a) path.length).getD c 0 =
      (mb.pathCols path (fun x _ => s x) path.length).getD c 0 • (mb.pathCols path g path.length).getD c 0 := by
  have key : ∀ k, k ≤ path.length → (mb.pathCols path (fun x a => s x • g x a) k).getD c 0 =
      (mb.pathCols path (fun x _ => s x) k).getD c 0 • (mb.pathCols path g k).getD c 0 := by
    intro k
    induction k with
    | zero => intro _; simp [MultiBody.pathCols]
    | succ k ih =>
      intro hk
      simp only [pathColsOf_getD _ _ _ hk]
      split
      · exact ih (by omega)
      · split
        · rfl
        · simp
  exact key _ le_rfl

theorem rotCols_getD (E : Mat3 K) (S : List (MotionVec K)) (c : Nat) :
    (rotCols E S).getD c 0 = (PTransform.ofRot E).mulMotion (S.getD c 0) := by
  unfold rotCols
  rw [List.getD_eq_getElem?_getD, List.getElem?_map, List.getD_eq_getElem?_getD]
  cases S[c]? with
  | none => simp [PTransform.mulMotion_zero]
  | some x => simp [PTransform.mulMotion, PTransform.ofRot]

/-! ### Normal acceleration over a part of a path -/

section normal
variable {q : List (List K)}

/-- What `normalAccB` sums over the joints from below `R` down to `i`. -/
theorem normalAccB_upTo (wf : mb.WF) (hr : mb.Rigid) {mbc : MBC K} (hq : ValidQ mb mbc.q) (hv : mbc.VelReady mb) {R : Nat} : ∀ i, i < mb.bodies.length →
    R ∈ pathUp mb.par i → normalAccB mbc (upTo mb.par R i).reverse =
      .ok (mb.accAt mbc.q mbc.alpha [] 0 i - (mb.relAt mbc.q R i).mulMotion (mb.accAt mbc.q mbc.alpha [] 0 R)) := by
  have h0 : ∀ i, mb.jointMotion [] i = 0 := fun i => by simp [MultiBody.jointMotion, applyCols]
  have e : ∀ path : List Nat, normalAccB mbc path = path.foldlM (fun accel i => do
      let X ← rd mbc.parentToSon i
      let vj ← rd mbc.jointVelocity i
      let vb ← rd mbc.bodyVelB i
      return X.mulMotion accel + vb.cross vj) 0 := fun path => foldlM_range_rd (fun accel i => do
      let X ← rd mbc.parentToSon i
      let vj ← rd mbc.jointVelocity i
      let vb ← rd mbc.bodyVelB i
      return X.mulMotion accel + vb.cross vj) path 0
  intro i
  induction i using Nat.strong_induction_on with
  | _ i ih =>
    intro hi hR
    by_cases hc : i = R
    · subst hc
      rw [upTo_self, mb.relAt_self hr hq, PTransform.one_mulMotion, sub_self]
      rfl
    · cases h : mb.par i with
      | none => rw [mem_pathUp_none h] at hR; exact absurd hR.symm hc
      | some k =>
        have hk := wf.par_lt _ _ h
        rw [mem_pathUp_some h hk] at hR
        have ih' := ih k hk (by omega) (hR.resolve_left (Ne.symm hc))
        rw [e] at ih' ⊢
        rw [upTo_some hc h hk, List.reverse_cons, List.foldlM_append, ih', wf.accAt_some hr hq _ _ _ hi h]
        have hX : mb.relAt mbc.q R i = mb.ptsAt mbc.q i * mb.relAt mbc.q R k := by
          unfold MultiBody.relAt
          rw [wf.posAt_some _ h, PTransform.mul_assoc']
        simp [hv.rd_pts hi, hv.rd_vj hi, hv.rd_vB hi, h0]
        rw [hX, PTransform.mul_mulMotion _ _ _ (mb.relAt_rigid hr hq _ _), PTransform.mulMotion_sub]
        abel

end normal

end RBDyn
