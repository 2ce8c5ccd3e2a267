import Verif.Spec.MultiBody
import Verif.Lemmas.Base
import Verif.Lemmas.Joint

/-! Helper lemmas about `MultiBodyConfig`. -/

namespace RBDyn

/-- The first `k` entries of `l` (of length `n`) are those given by `f`. -/
def Filled {α : Type _} (l : List α) (f : Nat → Option α) (k n : Nat) : Prop :=
  l.length = n ∧ ∀ i, i < k → l[i]? = f i

namespace Filled
variable {α : Type _} {l : List α} {f : Nat → Option α} {k n : Nat}

theorem zero (h : l.length = n) : Filled l f 0 n := ⟨h, fun _ hi => absurd hi (Nat.not_lt_zero _)⟩

theorem set (h : Filled l f k n) {a : α} (hk : k < n) (ha : f k = some a) : Filled (l.set k a) f (k + 1) n := by
  refine ⟨by simpa using h.1, fun i hi => ?_⟩
  rw [List.getElem?_set]
  split
  · rename_i e; subst e; rw [if_pos (by have := h.1; omega), ha]
  · exact h.2 i (by omega)

theorem eq_map {β : Type _} {g : β → α} {L : List β} (h : Filled l (fun i => (L[i]?).map g) n n) (hL : L.length = n) :
    l = L.map g := by
  apply List.ext_getElem?
  intro i
  by_cases hi : i < n
  · rw [h.2 i hi]; simp
  · have := h.1
    rw [List.getElem?_eq_none (by omega), List.getElem?_eq_none (by simp; omega)]

end Filled

section
variable {K : Type}

/-- A loop that only checks. -/
theorem foldlM_check {γ : Type _} (c : γ → Prop) [DecidablePred c] (e : Err) (f : Unit → γ → Res Unit) (l : List γ)
    (hf : ∀ x ∈ l, f () x = if c x then .error e else .ok ()) :
    l.foldlM f () = if ∀ x ∈ l, ¬ c x then .ok () else .error e := by
  induction l with
  | nil => simp
  | cons x l ih =>
    rw [List.foldlM_cons, hf x (by simp)]
    by_cases hx : c x
    · simp [hx]
    · simp only [hx, if_false, Res.bind_ok]
      rw [ih (fun y hy => hf y (by simp [hy]))]
      simp [hx]

theorem map_length_eq_iff {α : Type} (v : List (List α)) (js : List (Joint K)) (sz : Joint K → Nat)
    (hl : v.length = js.length) :
    v.map List.length = js.map sz ↔
      ∀ i ∈ List.range js.length, ¬ ((v[i]?.map List.length) ≠ (js[i]?.map sz)) := by
  constructor
  · intro h i _
    have := congrArg (fun l => l[i]?) h
    simpa using this
  · intro h
    apply List.ext_getElem?
    intro i
    by_cases hi : i < js.length
    · have := h i (by simpa using hi)
      simpa using this
    · rw [List.getElem?_eq_none (by simp; omega), List.getElem?_eq_none (by simp; omega)]

/-- The size-checking loop throws exactly if some joint vector has the wrong size. -/
theorem checkJointVecSizes_eq {α : Type} (mb : MultiBody K) (sz : Joint K → Nat) (e : Err) (v : List (List α))
    (hl : v.length = mb.joints.length) {n : Nat} (hn : n = mb.joints.length) :
    checkJointVecSizes mb sz e n v =
      if v.map List.length = mb.joints.map sz then .ok () else .error e := by
  classical
  subst hn
  unfold checkJointVecSizes
  rw [foldlM_check (fun i => (v[i]?.map List.length) ≠ (mb.joints[i]?.map sz)) e]
  · exact if_congr (map_length_eq_iff v _ sz hl).symm rfl rfl
  · intro i hi
    have hi : i < mb.joints.length := by simpa using hi
    have hi' : i < v.length := by omega
    simp only [MultiBody.joint, rdI_ofNat, rd_ok hi, rd_ok hi', Res.bind_ok, List.getElem?_eq_getElem hi,
      List.getElem?_eq_getElem hi', Option.map_some]
    by_cases h : (v[i]).length = sz mb.joints[i]
    · simp [h]
    · simp [h]; rfl

end

section
variable {K : Type} [Scalar K]

/-- State of the `MultiBodyConfig` constructor. -/
theorem MBC.mk'_eq (u : Uninit K) (mb : MultiBody K) :
    MBC.mk' u mb = .ok
      { q := mb.joints.map fun j => List.replicate j.params 0
        alpha := mb.joints.map fun j => List.replicate j.dof 0
        alphaD := mb.joints.map fun j => List.replicate j.dof 0
        force := (List.range mb.bodies.length).map u.fv
        jointConfig := (List.range mb.joints.length).map u.X
        jointVelocity := (List.range mb.joints.length).map u.mv
        jointTorque := mb.joints.map fun j => List.replicate j.dof 0
        motionSubspace := (List.range mb.joints.length).map fun i =>
          (List.range ((mb.joints[i]?.map (·.dof)).getD 0)).map (u.col i)
        bodyPosW := (List.range mb.bodies.length).map u.X
        parentToSon := (List.range mb.bodies.length).map u.X
        bodyVelW := (List.range mb.bodies.length).map u.mv
        bodyVelB := (List.range mb.bodies.length).map u.mv
        bodyAccB := (List.range mb.bodies.length).map u.mv
        gravity := ⟨0, 981 / 100, 0⟩ } := by
  set n := mb.joints.length with hn
  refine (foldlM_range_inv (MBC.ctorStep u mb)
    (fun k s =>
      Filled s.q (fun i => (mb.joints[i]?).map fun j => List.replicate j.params 0) k n ∧
      Filled s.alpha (fun i => (mb.joints[i]?).map fun j => List.replicate j.dof 0) k n ∧
      Filled s.alphaD (fun i => (mb.joints[i]?).map fun j => List.replicate j.dof 0) k n ∧
      Filled s.jointTorque (fun i => (mb.joints[i]?).map fun j => List.replicate j.dof 0) k n ∧
      Filled s.motionSubspace (fun i => ((List.range n)[i]?).map fun i =>
          (List.range ((mb.joints[i]?.map (·.dof)).getD 0)).map (u.col i)) k n ∧
      (s.force = (List.range mb.bodies.length).map u.fv ∧
        s.jointConfig = (List.range mb.joints.length).map u.X ∧
        s.jointVelocity = (List.range mb.joints.length).map u.mv) ∧
      (s.bodyPosW = (List.range mb.bodies.length).map u.X ∧
        s.parentToSon = (List.range mb.bodies.length).map u.X ∧
        s.bodyVelW = (List.range mb.bodies.length).map u.mv ∧
        s.bodyVelB = (List.range mb.bodies.length).map u.mv ∧
        s.bodyAccB = (List.range mb.bodies.length).map u.mv ∧
        s.gravity = ⟨0, 981 / 100, 0⟩)) n
    { q := List.replicate n [], alpha := List.replicate n [], alphaD := List.replicate n [],
      force := (List.range mb.bodies.length).map u.fv, jointConfig := (List.range n).map u.X,
      jointVelocity := (List.range n).map u.mv, jointTorque := List.replicate n [],
      motionSubspace := List.replicate n [], bodyPosW := (List.range mb.bodies.length).map u.X,
      parentToSon := (List.range mb.bodies.length).map u.X, bodyVelW := (List.range mb.bodies.length).map u.mv,
      bodyVelB := (List.range mb.bodies.length).map u.mv, bodyAccB := (List.range mb.bodies.length).map u.mv,
      gravity := ⟨0, 981 / 100, 0⟩ } ?_ ?_).elim ?_
  · refine ⟨.zero (by simp), .zero (by simp), .zero (by simp), .zero (by simp), .zero (by simp), ⟨rfl, rfl, rfl⟩, rfl,
      rfl, rfl, rfl, rfl, rfl⟩
  · rintro k s hk ⟨h1, h2, h3, h4, h5, h6, h7⟩
    have e1 := h1.1
    have e2 := h2.1
    have e3 := h3.1
    have e4 := h4.1
    have e5 := h5.1
    have hj : mb.joints[k]? = some mb.joints[k] := List.getElem?_eq_getElem hk
    simp only [MBC.ctorStep, MultiBody.joint, rdI_ofNat, rd_ok hk, Res.bind_ok, wr_ok (e1 ▸ hk), wr_ok (e2 ▸ hk),
      wr_ok (e3 ▸ hk), wr_ok (e4 ▸ hk), wr_ok (e5 ▸ hk), Res.pure_eq, Except.ok.injEq, exists_eq_left']
    refine ⟨h1.set hk (by simp [hj]), h2.set hk (by simp [hj]), h3.set hk (by simp [hj]), h4.set hk (by simp [hj]),
      h5.set hk ?_, h6, h7⟩
    rw [List.getElem?_range hk]
    simp [hj]
  · rintro s ⟨hs, h1, h2, h3, h4, h5, h6, h7⟩
    refine hs.trans ?_
    congr 1
    obtain ⟨h61, h62, h63⟩ := h6
    obtain ⟨h71, h72, h73, h74, h75, h76⟩ := h7
    have e1 := h1.eq_map hn.symm
    have e2 := h2.eq_map hn.symm
    have e3 := h3.eq_map hn.symm
    have e4 := h4.eq_map hn.symm
    have e5 := h5.eq_map (by simp)
    cases s
    simp only at *
    simp [e1, e2, e3, e4, e5, h61, h62, h63, h71, h72, h73, h74, h75, h76, hn]

theorem MBC.zero_eq (mb : MultiBody K) (mbc : MBC K) (h1 : mbc.q.length = mb.joints.length)
    (h2 : mbc.alpha.length = mb.joints.length) (h3 : mbc.alphaD.length = mb.joints.length)
    (h4 : mbc.jointTorque.length = mb.joints.length) :
    MBC.zero mb mbc = .ok
      { mbc with
        q := mb.joints.map (·.zeroParam), alpha := mb.joints.map (·.zeroDof), alphaD := mb.joints.map (·.zeroDof),
        jointTorque := mb.joints.map (·.zeroDof), force := mbc.force.map fun _ => 0 } := by
  set n := mb.joints.length with hn
  refine (foldlM_range_inv (MBC.zeroStep mb)
    (fun k s =>
      Filled s.q (fun i => (mb.joints[i]?).map (·.zeroParam)) k n ∧
      Filled s.alpha (fun i => (mb.joints[i]?).map (·.zeroDof)) k n ∧
      Filled s.alphaD (fun i => (mb.joints[i]?).map (·.zeroDof)) k n ∧
      Filled s.jointTorque (fun i => (mb.joints[i]?).map (·.zeroDof)) k n ∧
      { s with q := mbc.q, alpha := mbc.alpha, alphaD := mbc.alphaD, jointTorque := mbc.jointTorque } = mbc) n
    mbc ⟨.zero h1, .zero h2, .zero h3, .zero h4, rfl⟩ ?_).elim ?_
  · rintro k s hk ⟨g1, g2, g3, g4, g5⟩
    have e1 := g1.1
    have e2 := g2.1
    have e3 := g3.1
    have e4 := g4.1
    have hj : mb.joints[k]? = some mb.joints[k] := List.getElem?_eq_getElem hk
    simp only [MBC.zeroStep, MultiBody.joint, rdI_ofNat, rd_ok hk, Res.bind_ok, wr_ok (e1 ▸ hk), wr_ok (e2 ▸ hk),
      wr_ok (e3 ▸ hk), wr_ok (e4 ▸ hk), Res.pure_eq, Except.ok.injEq, exists_eq_left']
    exact ⟨g1.set hk (by simp [hj]), g2.set hk (by simp [hj]), g3.set hk (by simp [hj]), g4.set hk (by simp [hj]), g5⟩
  · rintro s ⟨hs, g1, g2, g3, g4, g5⟩
    unfold MBC.zero
    rw [h1, hs]
    have e1 := g1.eq_map hn.symm
    have e2 := g2.eq_map hn.symm
    have e3 := g3.eq_map hn.symm
    have e4 := g4.eq_map hn.symm
    simp only [Res.bind_ok, Res.pure_eq]
    congr 1
    cases s
    cases mbc
    simp only at *
    simp only [MBC.mk.injEq] at g5
    simp_all

theorem Joint.Built.zeroParam_length {j : Joint K} (h : j.Built) : j.zeroParam.length = j.params := by
  obtain ⟨t, a, f, n, rfl | ⟨mn, m, o, rfl⟩⟩ := h.exists_mk <;> cases t <;> rfl

theorem Joint.Built.zeroDof_length {j : Joint K} (h : j.Built) : j.zeroDof.length = j.dof := by
  obtain ⟨t, a, f, n, rfl | ⟨mn, m, o, rfl⟩⟩ := h.exists_mk <;> cases t <;> rfl

end
end RBDyn
