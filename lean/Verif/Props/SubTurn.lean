import Verif.Lemmas.SubTurn
import Verif.Props.SubMB

/-! Property C58: the robot of a relative path that turns is right only if the static transforms at the turn commute. -/

namespace RBDyn

variable {K : Type} [Scalar K] {mb : MultiBody K}

/-- C58: exactly when `subMultiBody` is right for a relative Jacobian whose path turns at the body `c`. Whatever the values of the joints, forward
kinematics on the robot it returns gives the last body its pose relative to the reference body if and only if the two static transforms at the turn
commute. -/
theorem C58_turn_iff (wf : mb.WF) (hr : mb.Rigid) {mbc : MBC K} (hq : ValidQ mb mbc.q) (hv : mbc.PosReady mb)
    (junk : Nat → MotionVec K) {name rname : String} {N R c : Nat} (hN : mb.sBodyIndexByName name = .ok (N : Int))
    (hR : mb.sBodyIndexByName rname = .ok (R : Int)) (hNl : N < mb.nrBodies) (hRl : R < mb.nrBodies) (hNR : N ∉ pathUp mb.par R)
    (hRN : R ∉ pathUp mb.par N) (hc : mb.IsCommon N R c) {k : Nat} (hk : mb.par c = some k) {u v : Nat} (hu : u ∈ pathUp mb.par R)
    (hvN : v ∈ pathUp mb.par N) (huc : mb.par u = some c) (hvc : mb.par v = some c) {X Y : PTransform K} (hX : mb.Xt[u]? = some X)
    (hY : mb.Xt[v]? = some Y) (p : Vec3 K) :
    ∃ J sub W W', Jac.mkRel junk mb name rname p = .ok J ∧ J.subMultiBody mb = .ok sub ∧ sub.WF ∧ sub.nrBodies = J.path.length ∧
      mbc.bodyPosW[N]? = some W ∧ mbc.bodyPosW[R]? = some W' ∧
      ∀ mbc' : MBC K, mbc'.Sized sub → (∀ k i : Nat, J.path[k]? = some i → mbc'.q[k]? = mbc.q[i]?) →
        ∃ m, forwardKinematics sub mbc' = .ok m ∧ (m.bodyPosW.getLast? = some (W * W'.inv) ↔ X.inv * Y = Y * X.inv) := by
  have hNl : N < mb.bodies.length := hNl
  have hRl : R < mb.bodies.length := hRl
  have hNc : N ≠ c := by rintro rfl; exact hNR hc.right
  obtain ⟨J, e, hJ, hp, hs⟩ := Jac.mkRel_branch wf junk hN hR hNl hRl hRN hNR hc hk p
  have hw := Jac.walk_of wf hc.left hc.right hp hs
  obtain ⟨sub, e1, h1, h2, h3, h4, h5⟩ := Jac.subMultiBody_eq wf hJ.toFits
  have hso : J.SubOf mb sub := ⟨h1, h2, h3, h4⟩
  refine ⟨J, sub, _, _, e, e1, h1, h2, by rw [hv.bodyPosW, range_map_getElem? hNl], by rw [hv.bodyPosW, range_map_getElem? hRl], ?_⟩
  intro mbc' sz' hm
  have hj : sub.joints.length = J.path.length := by rw [h1.njoints, h2]
  have hql : mbc.q.length = mb.bodies.length := by rw [← hq.length_eq, wf.njoints]
  have hq' : mbc'.q = pathList J.path mbc.q := by
    have hl' : mbc'.q.length = J.path.length := by
      have := congrArg List.length sz'.q
      rwa [List.length_map, List.length_map, hj] at this
    apply List.ext_getElem?
    intro k
    by_cases hk : k < J.path.length
    · have hk' : J.path[k]? = some J.path[k] := List.getElem?_eq_getElem hk
      have hi := hJ.path _ (List.getElem_mem hk)
      have hx : mbc.q[J.path[k]]? = some (mbc.q[J.path[k]]'(by omega)) := List.getElem?_eq_getElem _
      rw [hm k _ hk', pathList_get hk' hx, hx]
    · rw [List.getElem?_eq_none (by omega), List.getElem?_eq_none (by rw [pathList, List.length_map]; omega)]
  obtain ⟨m, g1, g2, -, g3, -⟩ := C23_posReady h1 sz'
  refine ⟨m, g1, ?_⟩
  obtain ⟨l, hl⟩ := upTo_head (par := mb.par) hNc
  have hlen : J.path.length = (upTo mb.par c R).length + l.length + 1 := by
    rw [hp, hl]; simp; omega
  have hlast : J.path[J.path.length - 1]? = some N := by
    rw [← List.getLast?_eq_getElem?, hp, hl, List.reverse_cons, ← List.append_assoc, List.getLast?_append]; simp
  have hUu : (upTo mb.par c R).getLast? = some u := upTo_getLast wf.par_lt huc R hu
  have hVv : (upTo mb.par c N).reverse.head? = some v := by rw [List.head?_reverse]; exact upTo_getLast wf.par_lt hvc N hvN
  have hXu : mb.XtAt u = X := by simp [MultiBody.XtAt, hX]
  have hYv : mb.XtAt v = Y := by simp [MultiBody.XtAt, hY]
  rw [g2.bodyPosW, List.getLast?_eq_getElem?, List.length_map, List.length_range, range_map_getElem? (by omega), g3, hq', h2, Option.some.injEq]
  constructor
  · intro e5
    have := hw.commute hso wf hr hq hUu hVv _ N hlast (by omega) e5
    rwa [hXu, hYv] at this
  · intro hcomm
    refine (hw.pos hso wf hr hq (fun u' v' hu' hv' => ?_) _ N hlast).2 (by omega)
    cases hUu.symm.trans hu'
    cases hVv.symm.trans hv'
    rw [hXu, hYv]
    exact hcomm

/-! ### Hypotheses can be met -/

namespace Sample

theorem twist_wf : twist.WF := by
  obtain ⟨mb', h, hw, -⟩ := MultiBody.mk'_wf forkBodies forkJoints [-1, 0, 1, 2, 1] [0, 1, 2, 3, 4] [-1, 0, 1, 2, 1] twistXt rfl rfl rfl
    (by intro i hi
        have : i < 5 := hi
        obtain rfl | rfl | rfl | rfl | rfl : i = 0 ∨ i = 1 ∨ i = 2 ∨ i = 3 ∨ i = 4 := by omega
        all_goals rfl)
    (by intro i p hp
        obtain ⟨hi, -⟩ := List.getElem?_eq_some_iff.1 hp
        have : i < 5 := hi
        obtain rfl | rfl | rfl | rfl | rfl : i = 0 ∨ i = 1 ∨ i = 2 ∨ i = 3 ∨ i = 4 := by omega
        all_goals (cases hp; decide))
    rfl (fun j hj => (fork_units j hj).built)
  rw [C58_turn_counterexample.1] at h
  cases h
  exact hw

theorem twist_rigid : twist.Rigid := by
  have hj : twist.joints = forkJoints := by decide +kernel
  have hX : twist.Xt = twistXt := by decide +kernel
  constructor
  · rw [hj]; exact fork_units
  · rw [hX]
    intro X hX
    simp only [twistXt, List.mem_cons, List.not_mem_nil, or_false] at hX
    rcases hX with rfl | rfl | rfl | rfl | rfl
    · exact IsRigid.one
    · exact IsRigid.one
    · refine ⟨?_, ?_⟩ <;> decide +kernel
    · exact IsRigid.one
    · exact ofTrans_rigid _

end Sample

/-- The robot of the counterexample meets the hypotheses: it is wrong for all values of its joints. -/
example (mbc : MBC ℚ) (hq : ValidQ Sample.twist mbc.q) (hv : mbc.PosReady Sample.twist) :
    ∃ J sub W W', Jac.mkRel (fun _ => 0) Sample.twist "hand" "right" 0 = .ok J ∧ J.subMultiBody Sample.twist = .ok sub ∧
      mbc.bodyPosW[3]? = some W ∧ mbc.bodyPosW[4]? = some W' ∧
      ∀ mbc' : MBC ℚ, mbc'.Sized sub → (∀ k i : Nat, J.path[k]? = some i → mbc'.q[k]? = mbc.q[i]?) →
        ∃ m, forwardKinematics sub mbc' = .ok m ∧ m.bodyPosW.getLast? ≠ some (W * W'.inv) := by
  have h3 : pathUp Sample.twist.par 3 = [3, 2, 1, 0] := by decide +kernel
  have h4 : pathUp Sample.twist.par 4 = [4, 1, 0] := by decide +kernel
  have h1 : pathUp Sample.twist.par 1 = [1, 0] := by decide +kernel
  obtain ⟨J, sub, W, W', e1, e2, -, -, e3, e4, h⟩ := C58_turn_iff Sample.twist_wf Sample.twist_rigid hq hv (fun _ => 0) (name := "hand")
    (rname := "right") (N := 3) (R := 4) (c := 1) (k := 0) (u := 4) (v := 2) (X := .ofTrans ⟨1, 0, 0⟩)
    (Y := ⟨⟨3 / 5, 4 / 5, 0, -4 / 5, 3 / 5, 0, 0, 0, 1⟩, 0⟩) (by decide +kernel) (by decide +kernel) (by decide +kernel) (by decide +kernel)
    (by rw [h4]; decide) (by rw [h3]; decide) ⟨by rw [h3]; decide, by rw [h4]; decide, fun x hx hx' => by
      rw [h3] at hx
      rw [h4] at hx'
      rw [h1]
      simp only [List.mem_cons, List.not_mem_nil, or_false] at *
      omega⟩ (by decide +kernel) (by rw [h4]; decide) (by rw [h3]; decide) (by decide +kernel) (by decide +kernel) (by decide +kernel)
    (by decide +kernel) 0
  refine ⟨J, sub, W, W', e1, e2, e3, e4, fun mbc' sz hm => ?_⟩
  obtain ⟨m, e, hi⟩ := h mbc' sz hm
  exact ⟨m, e, fun hx => absurd (hi.1 hx) (by decide +kernel)⟩

end RBDyn
