import Verif.Props.IntegrationExact
import Verif.Lemmas.Kinematics
import Verif.Spec.KinDeriv

/-! Through every state of a robot passes a trajectory: the theorems that assume one speak about every state. -/

namespace RBDyn
open scoped Mat3

theorem curve_linear {x d : List ℝ} (h : x.length = d.length) : ∃ Q : ℝ → List ℝ, Q 0 = x ∧ (∀ s, (Q s).length = x.length) ∧ HasDerivList Q d 0 := by
  refine ⟨fun s => List.zipWith (fun u v => u + v * s) x d, ?_, fun s => by simp [h], fun s => by simp [h], fun k => ?_⟩
  · simp only [mul_zero, add_zero]
    refine List.ext_getElem (by simp [h]) fun k h1 h2 => by simp
  · by_cases hk : k < x.length
    · have hkd : k < d.length := by omega
      simp only [List.getD, List.getElem?_zipWith, List.getElem?_eq_getElem hk, List.getElem?_eq_getElem hkd, Option.getD_some]
      have h1 : HasDerivAt (fun s : ℝ => s) 1 0 := hasDerivAt_id 0
      simpa using (h1.const_mul d[k]).const_add x[k]
    · have hkd : ¬ k < d.length := by omega
      simp only [List.getD, List.getElem?_zipWith, List.getElem?_eq_none (Nat.not_lt.1 hk), List.getElem?_eq_none (Nat.not_lt.1 hkd),
        Option.getD_none]
      exact hasDerivAt_const 0 0

/-- Every valid position and velocity of a joint belong to a curve of valid positions. -/
theorem joint_through (t : JointType) {x v : List ℝ} (hx : ValidParam t x) (hv : v.length = Joint.nDof t) :
    ∃ Q : ℝ → List ℝ, Q 0 = x ∧ (∀ s, ValidParam t (Q s)) ∧ HasDerivList Q (coordRate t x v) 0 := by
  obtain ⟨hl, hn⟩ := hx
  cases t with
  | Rev =>
    obtain ⟨Q, h1, h2, h3⟩ := curve_linear (x := x) (d := v) (hl.trans hv.symm)
    exact ⟨Q, h1, fun s => ⟨(h2 s).trans hl, trivial⟩, h3⟩
  | Prism =>
    obtain ⟨Q, h1, h2, h3⟩ := curve_linear (x := x) (d := v) (hl.trans hv.symm)
    exact ⟨Q, h1, fun s => ⟨(h2 s).trans hl, trivial⟩, h3⟩
  | Cylindrical =>
    obtain ⟨Q, h1, h2, h3⟩ := curve_linear (x := x) (d := v) (hl.trans hv.symm)
    exact ⟨Q, h1, fun s => ⟨(h2 s).trans hl, trivial⟩, h3⟩
  | Fixed =>
    obtain ⟨Q, h1, h2, h3⟩ := curve_linear (x := x) (d := v) (hl.trans hv.symm)
    exact ⟨Q, h1, fun s => ⟨(h2 s).trans hl, trivial⟩, h3⟩
  | Planar =>
    obtain ⟨x0, x1, x2, rfl⟩ := list3 hl
    obtain ⟨v0, v1, v2, rfl⟩ := list3 hv
    obtain ⟨Q, h1, h2, h3⟩ := curve_linear (x := [x0, x1, x2]) (d := coordRate .Planar [x0, x1, x2] [v0, v1, v2]) rfl
    exact ⟨Q, h1, fun s => ⟨h2 s, trivial⟩, h3⟩
  | Spherical =>
    obtain ⟨v0, v1, v2, rfl⟩ := list3 hv
    obtain ⟨x0, x1, x2, x3, rfl⟩ := list4 hl
    obtain ⟨Q, h0, h1, -, h3⟩ := spherical_exact (x := ⟨x0, x1, x2, x3⟩) hn (w := ⟨v0, v1, v2⟩) (d := 0) (by simp) one_ne_zero
    obtain ⟨d0, d1, d2, d3⟩ := h3 0
    refine ⟨fun s => [(Q s).w, (Q s).x, (Q s).y, (Q s).z], by simp [h0], fun s => ⟨rfl, h1 s⟩, ?_⟩
    refine hasDerivList_map (fs := [fun s => (Q s).w, fun s => (Q s).x, fun s => (Q s).y, fun s => (Q s).z])
      (.cons (d0.congr_deriv ?_) (.cons (d1.congr_deriv ?_) (.cons (d2.congr_deriv ?_) (.cons (d3.congr_deriv ?_) .nil))))
    all_goals simp [h0]
  | Free =>
    obtain ⟨v0, v1, v2, v3, v4, v5, rfl⟩ := list6 hv
    obtain ⟨x0, x1, x2, x3, x4, x5, x6, rfl⟩ := list7 hl
    obtain ⟨Q, h0, h1, -, h3⟩ := spherical_exact (x := ⟨x0, x1, x2, x3⟩) hn (w := ⟨v0, v1, v2⟩) (d := 0) (by simp) one_ne_zero
    obtain ⟨d0, d1, d2, d3⟩ := h3 0
    let V := Quat.toRot ⟨x0, x1, x2, x3⟩ *ᵥ (⟨v3, v4, v5⟩ : Vec3 ℝ)
    refine ⟨fun s => [(Q s).w, (Q s).x, (Q s).y, (Q s).z, x4 + V.x * s, x5 + V.y * s, x6 + V.z * s], by simp [h0], fun s => ⟨rfl, h1 s⟩, ?_⟩
    have hlin : ∀ a b : ℝ, HasDerivAt (fun s => a + b * s) b 0 := fun a b => by
      simpa using ((hasDerivAt_id (0 : ℝ)).const_mul b).const_add a
    refine hasDerivList_map (fs := [fun s => (Q s).w, fun s => (Q s).x, fun s => (Q s).y, fun s => (Q s).z, fun s => x4 + V.x * s,
      fun s => x5 + V.y * s, fun s => x6 + V.z * s]) (.cons (d0.congr_deriv ?_) (.cons (d1.congr_deriv ?_) (.cons (d2.congr_deriv ?_)
        (.cons (d3.congr_deriv ?_) (.cons (hlin _ _) (.cons (hlin _ _) (.cons (hlin _ _) .nil)))))))
    all_goals simp [h0]

variable {mb : MultiBody ℝ}

/-- Through every valid configuration passes a trajectory with every generalized velocity. -/
theorem trajectory_through (wf : mb.WF) {q β : List (List ℝ)} (hq : ValidQ mb q) (hβ : SizedDof mb β) :
    ∃ Q : ℝ → List (List ℝ), Q 0 = q ∧ Trajectory mb Q β 0 := by
  have lq : q.length = mb.joints.length := (List.Forall₂.length_eq hq).symm
  have lb := hβ.length
  have hall : ∀ i : Fin mb.joints.length, ∃ Q : ℝ → List ℝ, Q 0 = q[i] ∧ (∀ s, ValidParam mb.joints[i].type (Q s)) ∧
      HasDerivList Q (coordRate mb.joints[i].type q[i] β[i]) 0 := by
    intro i
    have hj := wf.built _ (List.getElem_mem i.2)
    have gj : mb.joints[i.1]? = some mb.joints[i] := List.getElem?_eq_getElem i.2
    have gb := List.getElem?_eq_getElem (l := β) (i := i.1) (by omega)
    exact joint_through mb.joints[i].type ((List.forall₂_iff_get.1 hq).2 i.1 i.2 (by omega)) ((hβ.get gb gj).trans hj.sizes.2)
  choose Y h0 h1 h2 using hall
  have e0 : (List.ofFn fun k => Y k 0) = q := by
    refine List.ext_getElem (by simp; omega) fun i k1 k2 => ?_
    have hi : i < mb.joints.length := by simpa using k1
    simpa using h0 ⟨i, hi⟩
  refine ⟨fun s => List.ofFn fun k => Y k s, e0, fun s => ?_, hβ, fun i j hj => ?_⟩
  · refine List.forall₂_iff_get.2 ⟨by simp, fun i k1 k2 => ?_⟩
    simpa using h1 ⟨i, k1⟩ s
  · obtain ⟨hi, rfl⟩ := List.getElem?_eq_some_iff.1 hj
    have hQi : ∀ s : ℝ, (List.ofFn fun k => Y k s)[i]? = some (Y ⟨i, hi⟩ s) := fun s => by simp [hi]
    have h3 := h2 ⟨i, hi⟩
    simp only [e0, hQi, Option.getD_some, List.getElem?_eq_getElem (show i < q.length by omega),
      List.getElem?_eq_getElem (show i < β.length by omega)]
    exact h3

theorem ValidQ.sizedQ (hr : mb.Rigid) {q : List (List ℝ)} (h : ValidQ mb q) : SizedQ mb q := by
  refine List.ext_getElem? fun i => ?_
  rw [List.getElem?_map, List.getElem?_map]
  cases hj : mb.joints[i]? with
  | none =>
    have : q.length = mb.joints.length := (List.Forall₂.length_eq h).symm
    have hi : q[i]? = none := by rw [List.getElem?_eq_none_iff] at hj ⊢; omega
    simp [hi]
  | some j =>
    obtain ⟨hil, hij⟩ := List.getElem?_eq_some_iff.1 hj
    have hl : i < q.length := by rw [← List.Forall₂.length_eq h]; exact hil
    have e2 := List.Forall₂.get h hil hl
    have e1 := List.getElem?_eq_getElem hl
    simp only [List.get_eq_getElem, hij] at e2
    have hb := hr.joints j (List.mem_of_getElem? hj)
    have hp : j.params = Joint.nParams j.type := by
      obtain ⟨t, a, f, n, -, rfl | ⟨mn, m, o, rfl⟩⟩ := hb.exists_mk <;> rfl
    simp [e1, e2.1, hp]

/-- Through every state with up to date poses and velocities passes a curve of such states with the accelerations of the state. The
theorems about trajectories speak about every state. -/
theorem state_through (wf : mb.WF) (hr : mb.Rigid) {c : MBC ℝ} (sz : c.Sized mb) (hv : c.VelReady mb) (hq : ValidQ mb c.q) :
    ∃ mbc : ℝ → MBC ℝ, mbc 0 = c ∧ (∀ s, (mbc s).Sized mb) ∧ (∀ s, (mbc s).VelReady mb) ∧
      Trajectory mb (fun s => (mbc s).q) (mbc 0).alpha 0 ∧ HasDerivDof mb (fun s => (mbc s).alpha) (mbc 0).alphaD 0 ∧
      ∀ s, (mbc s).force = c.force ∧ (mbc s).gravity = c.gravity := by
  obtain ⟨Q, hQ0, hQ⟩ := trajectory_through wf hq sz.alpha
  have la := sz.alpha.length
  have ld := sz.alphaD.length
  have hlen : ∀ (i : Nat) (hi : i < mb.joints.length), (c.alpha[i]'(by omega)).length = (c.alphaD[i]'(by omega)).length := fun i hi =>
    (sz.alpha.get (List.getElem?_eq_getElem (by omega)) (List.getElem?_eq_getElem hi)).trans
      (sz.alphaD.get (List.getElem?_eq_getElem (by omega)) (List.getElem?_eq_getElem hi)).symm
  have hA : ∃ A : ℝ → List (List ℝ), A 0 = c.alpha ∧ (∀ s, SizedDof mb (A s)) ∧ HasDerivDof mb A c.alphaD 0 := by
    have hall : ∀ i : Fin mb.joints.length, ∃ Y : ℝ → List ℝ, Y 0 = c.alpha[i] ∧ (∀ s, (Y s).length = (c.alpha[i]).length) ∧
        HasDerivList Y c.alphaD[i] 0 := fun i => curve_linear (hlen i.1 i.2)
    choose Y h0 h1 h2 using hall
    refine ⟨fun s => List.ofFn fun k => Y k s, ?_, fun s => ?_, fun i hi => ?_⟩
    · refine List.ext_getElem (by simp; omega) fun i k1 k2 => ?_
      have hi : i < mb.joints.length := by simpa using k1
      simpa using h0 ⟨i, hi⟩
    · have := sz.alpha
      unfold SizedDof at this ⊢
      rw [← this]
      refine List.ext_getElem (by simp; omega) fun i k1 k2 => ?_
      have hi : i < mb.joints.length := by simpa using k1
      simpa using h1 ⟨i, hi⟩ s
    · have hi' : i < mb.joints.length := by rw [wf.njoints]; exact hi
      have hYi : ∀ s : ℝ, (List.ofFn fun k => Y k s)[i]? = some (Y ⟨i, hi'⟩ s) := fun s => by simp [hi']
      simp only [hYi, Option.getD_some, List.getElem?_eq_getElem (show i < c.alphaD.length by omega)]
      exact h2 ⟨i, hi'⟩
  obtain ⟨A, hA0, hA1, hA2⟩ := hA
  refine ⟨fun s => { c with
      q := Q s, alpha := A s, parentToSon := (List.range mb.bodies.length).map (mb.ptsAt (Q s))
      bodyPosW := (List.range mb.bodies.length).map (mb.posAt (Q s))
      jointVelocity := (List.range mb.bodies.length).map (mb.jointMotion (A s))
      bodyVelB := (List.range mb.bodies.length).map (mb.velAt (Q s) (A s))
      bodyVelW := (List.range mb.bodies.length).map (mb.velWAt (Q s) (A s)) }, ?_, fun s => ?_, fun s => ?_, ?_, ?_, fun s => ⟨rfl, rfl⟩⟩
  · simp only [hQ0, hA0, ← hv.parentToSon, ← hv.bodyPosW, ← hv.jointVelocity, ← hv.bodyVelB, ← hv.bodyVelW]
  · exact ⟨(hQ.valid s).sizedQ hr, hA1 s, sz.alphaD, sz.jointTorque, sz.force, sz.jointConfig, by simp, sz.motionSubspace, by simp, by simp,
      by simp, by simp, sz.bodyAccB⟩
  · exact ⟨⟨rfl, rfl, hv.motionSubspace⟩, rfl, rfl, rfl⟩
  · simp only [hA0]; exact hQ
  · exact hA2

end RBDyn
