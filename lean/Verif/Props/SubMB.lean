import Verif.Lemmas.SubMB
import Verif.Props.JacRel

/-! Property C58 (the robot made of the path of a Jacobian). -/

namespace RBDyn
variable {K : Type} [Scalar K] {mb : MultiBody K}

/-- C58: for a Jacobian of a body, `subMultiBody` (and its checked version) returns the serial chain of the bodies and joints from the root to
that body; it has as many degrees of freedom as the Jacobian has columns, and forward kinematics and velocity on it, with the values the
joints have in the robot, give its bodies the poses and velocities they have in the robot. -/
theorem C58_chain (wf : mb.WF) (hr : mb.Rigid) {mbc : MBC K} (sz : mbc.Sized mb) (hq : ValidQ mb mbc.q) (hv : mbc.VelReady mb)
    {J : Jac K} {N : Nat} {p : Vec3 K} (h : J.Of mb N p) :
    ∃ sub, J.subMultiBody mb = .ok sub ∧ J.sSubMultiBody mb = .ok sub ∧ sub.WF ∧ sub.Rigid ∧ sub.nrBodies = J.path.length ∧
      sub.nrDof = J.jac.length ∧ J.path.getLast? = some N ∧
      (∀ k i : Nat, J.path[k]? = some i → sub.bodies[k]? = mb.bodies[i]? ∧ sub.joints[k]? = mb.joints[i]? ∧ sub.pred[k]? = some ((k : Int) - 1)) ∧
      ∀ mbc' : MBC K, mbc'.Sized sub → (∀ k i : Nat, J.path[k]? = some i → mbc'.q[k]? = mbc.q[i]? ∧ mbc'.alpha[k]? = mbc.alpha[i]?) →
        ∃ m₁ m, forwardKinematics sub mbc' = .ok m₁ ∧ forwardVelocity sub m₁ = .ok m ∧
          ∀ k i : Nat, J.path[k]? = some i → m.bodyPosW[k]? = mbc.bodyPosW[i]? ∧ m.bodyVelB[k]? = mbc.bodyVelB[i]? ∧
            m.bodyVelW[k]? = mbc.bodyVelW[i]? := by
  obtain ⟨sub, e, h1, h2, h3, h4, h5⟩ := Jac.subMultiBody_eq wf h.toFits
  have hs : J.SubOf mb sub := ⟨h1, h2, h3, h4⟩
  have ha : mbc.alpha.length = mb.bodies.length := by
    have := congrArg List.length sz.alpha
    rwa [List.length_map, List.length_map, wf.njoints] at this
  have hql : mbc.q.length = mb.bodies.length := by rw [← hq.length_eq, wf.njoints]
  have hj : sub.joints.length = J.path.length := by rw [h1.njoints, h2]
  obtain ⟨l, hl⟩ := pathUp_head (par := mb.par) N
  have hlast : J.path = l.reverse ++ [N] := by rw [h.path_eq, hl, List.reverse_cons]
  refine ⟨sub, e, ?_, h1, h.sub_rigid hs hr, h2, ?_, by rw [hlast]; simp, ?_, ?_⟩
  · unfold Jac.sSubMultiBody
    obtain ⟨_, hc⟩ := (checkPath_decides wf (J := J) (by rw [hlast]; simp)).1 h.toFits.path
    rw [hc, Res.bind_ok, e]
  · rw [h1.nDof, h.jac]
    congr 1
    apply List.ext_getElem?
    intro k
    rw [List.getElem?_map, List.getElem?_map]
    by_cases hk : k < J.path.length
    · have hk' : J.path[k]? = some J.path[k] := List.getElem?_eq_getElem hk
      rw [(h.sub_joint hs hk').1, hk', Option.map_some, MultiBody.dofAt.eq_def]
      have hi := h.path _ (List.getElem_mem hk)
      rw [List.getElem?_eq_getElem (by rw [wf.njoints]; exact hi)]
      rfl
    · rw [List.getElem?_eq_none (by omega), List.getElem?_eq_none (by omega)]; rfl
  · intro k i hk
    obtain ⟨hkl, -⟩ := List.getElem?_eq_some_iff.1 hk
    exact ⟨(h.sub_joint hs hk).2.1, (h.sub_joint hs hk).1, h5 k hkl⟩
  · intro mbc' sz' hm
    have eq1 : ∀ {v v' : List (List K)}, v.length = mb.bodies.length → v'.length = J.path.length →
        (∀ k i : Nat, J.path[k]? = some i → v'[k]? = v[i]?) → v' = pathList J.path v := by
      intro v v' hl hl' hh
      apply List.ext_getElem?
      intro k
      by_cases hk : k < J.path.length
      · have hk' : J.path[k]? = some J.path[k] := List.getElem?_eq_getElem hk
        have hi := h.path _ (List.getElem_mem hk)
        have hx : v[J.path[k]]? = some (v[J.path[k]]'(by omega)) := List.getElem?_eq_getElem _
        rw [hh k _ hk', pathList_get hk' hx, hx]
      · rw [List.getElem?_eq_none (by omega), List.getElem?_eq_none (by rw [pathList, List.length_map]; omega)]
    have hq' : mbc'.q = pathList J.path mbc.q := eq1 hql (by
      have := congrArg List.length sz'.q
      rwa [List.length_map, List.length_map, hj] at this) fun k i hk => (hm k i hk).1
    have ha' : mbc'.alpha = pathList J.path mbc.alpha := eq1 ha (by
      have := congrArg List.length sz'.alpha
      rwa [List.length_map, List.length_map, hj] at this) fun k i hk => (hm k i hk).2
    obtain ⟨m₁, m, g1, g2, g3, -, g5, g6, -⟩ := C24_velReady h1 (h.sub_rigid hs hr) sz' (by rw [hq']; exact SubOf.validQ hs hq)
    refine ⟨m₁, m, g1, g2, fun k i hk => ?_⟩
    obtain ⟨hkl, -⟩ := List.getElem?_eq_some_iff.1 hk
    have hi := h.path i (List.mem_of_getElem? hk)
    obtain ⟨k1, k2⟩ := h.sub_kinematics hs wf hr hq ha k i hk
    have hkl' : k < sub.bodies.length := by omega
    refine ⟨?_, ?_, ?_⟩
    · rw [g3.bodyPosW, hv.bodyPosW, range_map_getElem? hkl', range_map_getElem? hi, g5, hq', k1]
    · rw [g3.bodyVelB, hv.bodyVelB, range_map_getElem? hkl', range_map_getElem? hi, g5, g6, hq', ha', k2]
    · rw [g3.bodyVelW, hv.bodyVelW, range_map_getElem? hkl', range_map_getElem? hi, g5, g6, hq', ha']
      unfold MultiBody.velWAt
      rw [k1, k2]

/-- C58 for relative Jacobians, as far as the code is right. Full statement: for every relative Jacobian, forward kinematics on the robot
`subMultiBody` returns, with the values the joints have in the whole robot, gives the last body its pose relative to the reference body.
Missing, because the code is wrong there (see `C58_turn_counterexample`): at the turn of the path the two static transforms are multiplied in
the wrong order, so they must commute; and the pairs for which the relative constructor itself is wrong (C37). -/
theorem C58_relative_partial (wf : mb.WF) (hr : mb.Rigid) {mbc : MBC K} (hq : ValidQ mb mbc.q) (hv : mbc.PosReady mb)
    (junk : Nat → MotionVec K) {name rname : String} {N R c : Nat} (hN : mb.sBodyIndexByName name = .ok (N : Int))
    (hR : mb.sBodyIndexByName rname = .ok (R : Int)) (hNl : N < mb.nrBodies) (hRl : R < mb.nrBodies) (hNR : N ∉ pathUp mb.par R)
    (hc : mb.IsCommon N R c) (hcase : c = R ∨ ∃ k, mb.par c = some k)
    (hcomm : ∀ u v X Y, u ∈ pathUp mb.par R → v ∈ pathUp mb.par N → mb.par u = some c → mb.par v = some c → mb.Xt[u]? = some X →
      mb.Xt[v]? = some Y → X.inv * Y = Y * X.inv) (p : Vec3 K) :
    ∃ J sub W W', Jac.mkRel junk mb name rname p = .ok J ∧ J.subMultiBody mb = .ok sub ∧ sub.WF ∧ sub.nrBodies = J.path.length ∧
      mbc.bodyPosW[N]? = some W ∧ mbc.bodyPosW[R]? = some W' ∧
      ∀ mbc' : MBC K, mbc'.Sized sub → (∀ k i : Nat, J.path[k]? = some i → mbc'.q[k]? = mbc.q[i]?) →
        ∃ m, forwardKinematics sub mbc' = .ok m ∧ m.bodyPosW.getLast? = some (W * W'.inv) := by
  have hNl : N < mb.bodies.length := hNl
  have hRl : R < mb.bodies.length := hRl
  have hNc : N ≠ c := by rintro rfl; exact hNR hc.right
  obtain ⟨J, e, hJ, hp, hs⟩ : ∃ J, Jac.mkRel junk mb name rname p = .ok J ∧ J.Rel mb N R p ∧
      J.path = upTo mb.par c R ++ (upTo mb.par c N).reverse ∧
      J.sign = ((upTo mb.par c R).map fun _ => -1) ++ (upTo mb.par c N).reverse.map fun _ => 1 := by
    rcases hcase with rfl | ⟨k, hk⟩
    · obtain ⟨J, e, hJ, hp, hs⟩ := Jac.mkRel_ancestor wf junk hN hR hNl hRl hNc hc.left p
      refine ⟨J, e, hJ, ?_, ?_⟩
      · rw [upTo_self]; exact hp
      · rw [upTo_self]; exact hs
    · by_cases h1 : R ∈ pathUp mb.par N
      · have hRc : R = c := by
          have := hc.deepest R h1 (self_mem_pathUp _ R)
          exact Nat.le_antisymm (le_of_mem_pathUp this) (le_of_mem_pathUp hc.right)
        subst hRc
        obtain ⟨J, e, hJ, hp, hs⟩ := Jac.mkRel_ancestor wf junk hN hR hNl hRl hNc hc.left p
        refine ⟨J, e, hJ, ?_, ?_⟩
        · rw [upTo_self]; exact hp
        · rw [upTo_self]; exact hs
      · exact Jac.mkRel_branch wf junk hN hR hNl hRl h1 hNR hc hk p
  have hw := Jac.walk_of wf hc.left hc.right hp hs
  obtain ⟨sub, e1, h1, h2, h3, h4, h5⟩ := Jac.subMultiBody_eq wf hJ.toFits
  have hso : J.SubOf mb sub := ⟨h1, h2, h3, h4⟩
  refine ⟨J, sub, _, _, e, e1, h1, h2, by rw [hv.bodyPosW, range_map_getElem? hNl], by rw [hv.bodyPosW, range_map_getElem? hRl], ?_⟩
  intro mbc' sz' hm
  have hj : sub.joints.length = J.path.length := by rw [h1.njoints, h2]
  have hql : mbc.q.length = mb.bodies.length := by rw [← hq.length_eq, wf.njoints]
  have hq' : mbc'.q = pathList J.path mbc.q := by
    have hl' : mbc'.q.length = J.path.length := by
      have := congrArg List.length sz'.q
      rwa [List.length_map, List.length_map, hj] at this
    apply List.ext_getElem?
    intro k
    by_cases hk : k < J.path.length
    · have hk' : J.path[k]? = some J.path[k] := List.getElem?_eq_getElem hk
      have hi := hJ.path _ (List.getElem_mem hk)
      have hx : mbc.q[J.path[k]]? = some (mbc.q[J.path[k]]'(by omega)) := List.getElem?_eq_getElem _
      rw [hm k _ hk', pathList_get hk' hx, hx]
    · rw [List.getElem?_eq_none (by omega), List.getElem?_eq_none (by rw [pathList, List.length_map]; omega)]
  obtain ⟨m, g1, g2, -, g3, -⟩ := C23_posReady h1 sz'
  refine ⟨m, g1, ?_⟩
  obtain ⟨l, hl⟩ := upTo_head (par := mb.par) hNc
  have hlen : J.path.length = (upTo mb.par c R).length + l.length + 1 := by
    rw [hp, hl]; simp; omega
  have hlast : J.path[J.path.length - 1]? = some N := by
    rw [← List.getLast?_eq_getElem?, hp, hl, List.reverse_cons, ← List.append_assoc, List.getLast?_append]; simp
  have := (hw.pos hso wf hr hq (fun u v hu hv => ?_) _ N hlast).2 (by omega)
  · rw [g2.bodyPosW, List.getLast?_eq_getElem?, List.length_map, List.length_range, range_map_getElem? (by omega), g3, hq', h2, this]
  · have huU : u ∈ upTo mb.par c R := List.mem_of_getLast? hu
    have hvV : v ∈ upTo mb.par c N := List.mem_reverse.1 (List.mem_of_head? hv)
    have hul := wf.mem_pathUp_lt hRl (mem_upTo huU)
    have hvl := wf.mem_pathUp_lt hNl (mem_upTo hvV)
    obtain ⟨j, u1, u2⟩ := hw.up _ u (List.getLast?_eq_getElem? ▸ hu)
    have : 0 < (upTo mb.par c R).length := List.length_pos_of_mem huU
    rw [Nat.sub_add_cancel this, List.getElem?_append_right le_rfl, Nat.sub_self] at u2
    cases u2
    obtain ⟨j', v1, v2⟩ := hw.down 0 v (List.head?_eq_getElem? ▸ hv)
    cases v2
    unfold MultiBody.XtAt
    rw [List.getElem?_eq_getElem (by rw [wf.nXt]; exact hul), List.getElem?_eq_getElem (by rw [wf.nXt]; exact hvl)]
    exact hcomm u v _ _ (mem_upTo huU) (mem_upTo hvV) u1 v1 (List.getElem?_eq_getElem _) (List.getElem?_eq_getElem _)

/-! ### Hypotheses can be met, and the counterexample -/

/-- C58 on the sample robot: the chain from the base to the hand. -/
example : ∃ J sub, Jac.mk' (fun _ => 0) Sample.mb "hand" ⟨1, 2, 3⟩ = .ok J ∧ J.subMultiBody Sample.mb = .ok sub ∧ J.path = [0, 1, 2] ∧
    sub.nrBodies = 3 ∧ sub.pred = [-1, 0, 1] := by
  obtain ⟨h1, h2, h3⟩ := Sample.ready
  obtain ⟨J, e, h⟩ := C34_constructor Sample.wf (fun _ => 0) (name := "hand") (N := 2) (by decide +kernel) (by decide +kernel)
    (⟨1, 2, 3⟩ : Vec3 ℚ)
  obtain ⟨sub, e1, -, hw, -, hn, -, -, hp, -⟩ := C58_chain Sample.wf Sample.rigid h2 h3 h1 h
  have hpath : J.path = [0, 1, 2] := by rw [h.path_eq]; decide +kernel
  rw [hpath] at hn hp
  have hl : sub.pred.length = 3 := by rw [hw.npred]; exact hn
  refine ⟨J, sub, e, e1, hpath, hn, ?_⟩
  apply List.ext_getElem?
  intro k
  by_cases hk : k < 3
  · obtain rfl | rfl | rfl : k = 0 ∨ k = 1 ∨ k = 2 := by omega
    · exact (hp 0 0 rfl).2.2
    · exact (hp 1 1 rfl).2.2
    · exact (hp 2 2 rfl).2.2
  · rw [List.getElem?_eq_none (by omega), List.getElem?_eq_none (by simp; omega)]

/-- The forked robot meets the hypotheses of `C58_relative_partial` for the left hand relative to the right arm, on different branches. -/
example : Sample.fork.WF ∧ (3 ∉ pathUp Sample.fork.par 4) ∧ Sample.fork.IsCommon 3 4 1 ∧ (∃ k, Sample.fork.par 1 = some k) ∧
    ∀ u v X Y, u ∈ pathUp Sample.fork.par 4 → v ∈ pathUp Sample.fork.par 3 → Sample.fork.par u = some 1 → Sample.fork.par v = some 1 →
      Sample.fork.Xt[u]? = some X → Sample.fork.Xt[v]? = some Y → X.inv * Y = Y * X.inv := by
  refine ⟨Sample.fork_wf, Sample.fork_relOK.1, ⟨by decide +kernel, by decide +kernel, ?_⟩, ⟨0, by decide +kernel⟩, ?_⟩
  · have h3 : pathUp Sample.fork.par 3 = [3, 2, 1, 0] := by decide +kernel
    have h4 : pathUp Sample.fork.par 4 = [4, 1, 0] := by decide +kernel
    have h1 : pathUp Sample.fork.par 1 = [1, 0] := by decide +kernel
    intro x hx hx'
    rw [h3] at hx
    rw [h4] at hx'
    rw [h1]
    simp only [List.mem_cons, List.not_mem_nil, or_false] at *
    omega
  · intro u v X Y _ _ _ _ hX hY
    have hXt : Sample.fork.Xt = List.replicate 5 1 := by decide +kernel
    rw [hXt] at hX hY
    rw [List.eq_of_mem_replicate (List.mem_of_getElem? hX), List.eq_of_mem_replicate (List.mem_of_getElem? hY)]
    decide +kernel

namespace Sample

/-- Static transforms of the forked robot with a turned left shoulder and a right shoulder set apart. -/
def twistXt : List (PTransform ℚ) := [1, 1, ⟨⟨3 / 5, 4 / 5, 0, -4 / 5, 3 / 5, 0, 0, 0, 1⟩, 0⟩, 1, .ofTrans ⟨1, 0, 0⟩]

def twist : MultiBody ℚ := ((MultiBody.mk' forkBodies forkJoints [-1, 0, 1, 2, 1] [0, 1, 2, 3, 4] [-1, 0, 1, 2, 1] twistXt).toOption).getD
  ⟨[], [], [], [], [], [], [], [], [], [], 0, 0⟩

end Sample

/-- Poses, after forward kinematics at rest, of the last body of the robot made of the path, and of the body and the reference body in the
whole robot. -/
def subPoses (mb : MultiBody ℚ) (name rname : String) (N R : Nat) : Res (Option (PTransform ℚ) × Option (PTransform ℚ) × Option (PTransform ℚ)) := do
  let J ← Jac.mkRel (fun _ => 0) mb name rname 0
  let sub ← J.subMultiBody mb
  let m ← forwardKinematics mb (← MBC.mk' Sample.junk mb)
  let m' ← forwardKinematics sub (← MBC.mk' Sample.junk sub)
  return (m'.bodyPosW.getLast?, m.bodyPosW[N]?, m.bodyPosW[R]?)

/-- C58 fails for the left hand relative to the right arm when the left shoulder is turned and the right one set apart: the static transforms at
the turn of the path are multiplied in the wrong order. All bodies have the poses of their static transforms (the joints are at rest). -/
theorem C58_turn_counterexample : MultiBody.mk' Sample.forkBodies Sample.forkJoints [-1, 0, 1, 2, 1] [0, 1, 2, 3, 4] [-1, 0, 1, 2, 1]
      Sample.twistXt = .ok Sample.twist ∧
    ∃ X W W', subPoses Sample.twist "hand" "right" 3 4 = .ok (some X, some W, some W') ∧ X ≠ W * W'.inv ∧
      X.r = ⟨-3 / 5, -4 / 5, 0⟩ ∧ (W * W'.inv).r = ⟨-1, 0, 0⟩ := by
  refine ⟨by decide +kernel, ⟨⟨3 / 5, 4 / 5, 0, -4 / 5, 3 / 5, 0, 0, 0, 1⟩, ⟨-3 / 5, -4 / 5, 0⟩⟩, ⟨⟨3 / 5, 4 / 5, 0, -4 / 5, 3 / 5, 0, 0, 0, 1⟩, 0⟩,
    .ofTrans ⟨1, 0, 0⟩, by decide +kernel, by decide +kernel, by decide +kernel, by decide +kernel⟩

end RBDyn
