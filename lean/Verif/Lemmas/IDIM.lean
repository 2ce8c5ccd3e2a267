import Verif.Model.IDIM
import Verif.Lemmas.FD

/-! The regressor of inverse dynamics, and inverse statics. -/

namespace RBDyn
variable {K : Type} [Scalar K] {mb : MultiBody K}
open scoped Mat3

/-! ### Regressor of one body -/

theorem IMPhi_length (v : MotionVec K) : (IMPhi v).length = 10 := rfl

theorem inertiaToVector_length (a : RBInertia K) : (inertiaToVector a).length = 10 := rfl

/-- The regressor times the inertial parameters is the momentum. -/
theorem IMPhi_mul (v : MotionVec K) (a : RBInertia K) :
    ∑ c ∈ Finset.range 10, (inertiaToVector a).getD c 0 • (IMPhi v).getD c 0 = a.mulMotion v := by
  simp only [Finset.sum_range_succ, Finset.sum_range_zero, zero_add, IMPhi, inertiaToVector, List.getD_cons_zero,
    List.getD_cons_succ, RBInertia.mulMotion]
  ext <;> simp [Sym3.toMat] <;> ring

/-- Regressor of body `k` for velocity `v` and acceleration `a`: `IMPhi(a) + v ×* IMPhi(v)`. -/
def bodyPhi (v a : MotionVec K) : List (ForceVec K) :=
  (List.range 10).map fun c => (IMPhi a).getD c 0 + v.crossDual ((IMPhi v).getD c 0)

theorem bodyPhi_mul (v a : MotionVec K) (I : RBInertia K) :
    ∑ c ∈ Finset.range 10, (inertiaToVector I).getD c 0 • (bodyPhi v a).getD c 0 =
      I.mulMotion a + v.crossDual (I.mulMotion v) := by
  rw [← IMPhi_mul a I, ← IMPhi_mul v I]
  have e : v.crossDual (∑ c ∈ Finset.range 10, (inertiaToVector I).getD c 0 • (IMPhi v).getD c 0) =
      ∑ c ∈ Finset.range 10, (inertiaToVector I).getD c 0 • v.crossDual ((IMPhi v).getD c 0) := by
    let L : ForceVec K →+ ForceVec K := { toFun := v.crossDual, map_zero' := by simp, map_add' := v.crossDual_add }
    show L _ = _
    rw [map_sum]
    exact Finset.sum_congr rfl fun c _ => v.crossDual_smul _ _
  rw [e, ← Finset.sum_add_distrib]
  refine Finset.sum_congr rfl fun c hc => ?_
  unfold bodyPhi
  rw [getD_range_map _ _ _ (Finset.mem_range.1 hc), smul_add]

/-! ### The matrix -/

/-- Entry of the regressor: joint `i`, degree of freedom `a`, body `k`, parameter `c`. -/
def MultiBody.YAt (mb : MultiBody K) (q : List (List K)) (P : Nat → List (ForceVec K)) (i a k c : Nat) : K :=
  ((mb.SAt i).getD a 0).dot ((mb.relAt q i k).transMul ((P k).getD c 0))

/-- The memory of `IDIM` fits to the `MultiBody`: right sizes, and the blocks that are never written are zero. -/
structure IDIM.Fits (mb : MultiBody K) (d : IDIM K) : Prop where
  rows : d.Y.rows = mb.nrDof
  cols : d.Y.cols = mb.bodies.length * 10
  zero : ∀ i a k c, i < mb.bodies.length → k < mb.bodies.length → a < mb.dofAt i → c < 10 → i ∉ pathUp mb.par k →
    d.Y.get (mb.dofPosAt i + a) (k * 10 + c) = 0

def YSpec (mb : MultiBody K) (q : List (List K)) (P : Nat → List (ForceVec K)) (done : Nat → Nat → Prop) (Y : DMat K) : Prop :=
  IDIM.Fits mb ⟨Y⟩ ∧ ∀ i a k c, i < mb.bodies.length → k < mb.bodies.length → a < mb.dofAt i → c < 10 → done i k →
    Y.get (mb.dofPosAt i + a) (k * 10 + c) = mb.YAt q P i a k c

theorem YSpec.set (wf : mb.WF) {q : List (List K)} {P : Nat → List (ForceVec K)} {done done' : Nat → Nat → Prop} {Y : DMat K}
    (h : YSpec mb q P done Y) {i k : Nat} (hi : i < mb.bodies.length) (hk : k < mb.bodies.length) (hik : i ∈ pathUp mb.par k)
    {B : DMat K} (hr : B.rows = mb.dofAt i) (hc : B.cols = 10)
    (hB : ∀ a c, a < mb.dofAt i → c < 10 → B.get a c = mb.YAt q P i a k c)
    (hd : ∀ i' k', done' i' k' → done i' k' ∨ (i' = i ∧ k' = k)) :
    ∃ Y', Y.setBlock (mb.dofPosAt i) (k * 10) (mb.dofAt i) 10 B = .ok Y' ∧ YSpec mb q P done' Y' := by
  obtain ⟨⟨h1, h2, h0⟩, h3⟩ := h
  dsimp only at h1 h2 h0
  have b1 := wf.dofPosAt_add_le hi
  unfold DMat.setBlock
  rw [if_pos ⟨by omega, by omega, hr, hc⟩]
  have e : ∀ i' a k' c, i' < mb.bodies.length → a < mb.dofAt i' → c < 10 →
      ((mb.dofPosAt i ≤ mb.dofPosAt i' + a ∧ mb.dofPosAt i' + a < mb.dofPosAt i + mb.dofAt i ∧
      k * 10 ≤ k' * 10 + c ∧ k' * 10 + c < k * 10 + 10) ↔ i' = i ∧ k' = k) := by
    intro i' a k' c hi' ha hc
    have s1 := wf.in_segment hi hi' ha
    rw [← and_assoc, s1]
    constructor
    · rintro ⟨rfl, h⟩; exact ⟨rfl, by omega⟩
    · rintro ⟨rfl, rfl⟩; exact ⟨rfl, by omega, by omega⟩
  refine ⟨_, rfl, ⟨h1, h2, ?_⟩, ?_⟩
  · intro i' a k' c hi' hk' ha hc hp
    simp only [e i' a k' c hi' ha hc]
    rw [if_neg (by rintro ⟨rfl, rfl⟩; exact hp hik)]
    exact h0 i' a k' c hi' hk' ha hc hp
  · intro i' a k' c hi' hk' ha hc hdone
    simp only [e i' a k' c hi' ha hc]
    by_cases hij : i' = i ∧ k' = k
    · obtain ⟨rfl, rfl⟩ := hij
      simp only [and_self, if_true]
      rw [Nat.add_sub_cancel_left, Nat.add_sub_cancel_left]
      exact hB a c ha hc
    · rw [if_neg hij]
      rcases hd _ _ hdone with h | h
      · exact h3 i' a k' c hi' hk' ha hc h
      · exact absurd h hij

theorem YSpec.mono {q : List (List K)} {P : Nat → List (ForceVec K)} {done done' : Nat → Nat → Prop} {Y : DMat K}
    (h : YSpec mb q P done Y) (hd : ∀ i k, i < mb.bodies.length → 0 < mb.dofAt i → done' i k → done i k) :
    YSpec mb q P done' Y :=
  ⟨h.1, fun i a k c hi hk ha hc hdone => h.2 i a k c hi hk ha hc (hd i k hi (by omega) hdone)⟩

theorem MultiBody.WF.rd_posDof (wf : mb.WF) {i : Nat} (hi : i < mb.bodies.length) : rd mb.jointPosInDof i = .ok (mb.dofPosAt i) :=
  rd_of_getElem? (wf.posDof i (by rw [wf.njoints]; exact hi))

/-- The columns of body `k`, seen from its ancestor `j`. -/
def MultiBody.phiUp (mb : MultiBody K) (q : List (List K)) (P : Nat → List (ForceVec K)) (j k : Nat) : List (ForceVec K) :=
  (List.range 10).map fun c => (mb.relAt q j k).transMul ((P k).getD c 0)

theorem gram_phiUp (wf : mb.WF) {q : List (List K)} (P : Nat → List (ForceVec K)) (j k : Nat) {a c : Nat}
    (hc : c < 10) : (gram (mb.SAt j) (mb.phiUp q P j k)).get a c = mb.YAt q P j a k c := by
  simp only [gram, MultiBody.YAt, MultiBody.phiUp]
  rw [getD_range_map _ _ _ hc]

theorem yUp_eq (wf : mb.WF) (hr : mb.Rigid) {q : List (List K)} {mbc : MBC K} (hq : ValidQ mb q) (P : Nat → List (ForceVec K))
    (i : Nat) (hi : i < mb.bodies.length)
    (hX : Filled mbc.parentToSon (fun i => some (mb.ptsAt q i)) mb.bodies.length mb.bodies.length)
    (hS : Filled mbc.motionSubspace (fun i => some (mb.SAt i)) mb.bodies.length mb.bodies.length) :
    ∀ (fuel j : Nat) (Y : DMat K) (done done' : Nat → Nat → Prop), j < fuel → j ∈ pathUp mb.par i →
      YSpec mb q P done Y → (∀ i' k', done' i' k' → done i' k' ∨ (k' = i ∧ i' ∈ pathUp mb.par j ∧ i' ≠ j)) →
      ∃ Y', yUp mb mbc i fuel j (mb.phiUp q P j i) Y = .ok Y' ∧ YSpec mb q P done' Y' := by
  intro fuel
  induction fuel with
  | zero => intro j _ _ _ h; omega
  | succ fuel ih =>
    intro j Y done done' hjf hji hY hd
    have hjn : j < mb.bodies.length := by have := le_of_mem_pathUp hji; omega
    obtain ⟨p, hpr, ⟨rfl, hpar⟩ | ⟨k, rfl, hpar, hk⟩⟩ := wf.pred_cases hjn
    · refine ⟨Y, ?_, ?_⟩
      · simp only [yUp, hpr, Res.bind_ok, ne_eq, not_true_eq_false, if_false, Res.pure_eq]
      · refine hY.mono fun i' k' _ _ h => ?_
        rcases hd _ _ h with h | ⟨-, h1, h2⟩
        · exact h
        · rw [mem_pathUp_none hpar] at h1; exact absurd h1 h2
    · have hne : ((k : Int) ≠ -1) := by omega
      have hnn : ¬ ((k : Int) < 0) := by omega
      have hkn : k < mb.bodies.length := by omega
      obtain ⟨jk, hjk', hdk⟩ := wf.rd_joint hkn
      have hcols : setCols 10 (mb.phiUp q P j i)
          (fun c => do return (mb.ptsAt q j).transMul (← rd (mb.phiUp q P j i) c)) = .ok (mb.phiUp q P k i) := by
        refine setCols_eq _ _ _ _ (by simp [MultiBody.phiUp]) fun c hc => ?_
        have b : c < (mb.phiUp q P j i).length := by simpa [MultiBody.phiUp] using hc
        simp only [rd_ok b, Res.bind_ok, Res.pure_eq]
        simp only [MultiBody.phiUp, List.getElem_map, List.getElem_range]
        rw [← PTransform.mul_transMul _ _ _ (mb.ptsAt_rigid hr hq j), ← wf.relAt_parent hr hq hpar, mb.relAt_mul hr hq]
      simp only [Res.pure_eq] at hcols
      have hki : k ∈ pathUp mb.par i := pathUp_trans hji (by rw [mem_pathUp_some hpar hk]; exact .inr (self_mem_pathUp _ _))
      have hmem : ∀ m, (m ∈ pathUp mb.par j ∧ m ≠ j) → m = k ∨ (m ∈ pathUp mb.par k ∧ m ≠ k) := by
        rintro m ⟨h1, h2⟩
        rw [mem_pathUp_some hpar hk] at h1
        rcases h1 with h1 | h1
        · exact absurd h1 h2
        · by_cases h : m = k
          · exact .inl h
          · exact .inr ⟨h1, h⟩
      have hd' : ∀ i' k', done' i' k' → (done i' k' ∨ (i' = k ∧ k' = i)) ∨ (k' = i ∧ i' ∈ pathUp mb.par k ∧ i' ≠ k) := by
        intro i' k' h
        rcases hd _ _ h with h | ⟨h1, h2⟩
        · exact .inl (.inl h)
        · rcases hmem _ h2 with h | h
          · exact .inl (.inr ⟨h, h1⟩)
          · exact .inr ⟨h1, h⟩
      by_cases hz : mb.dofAt k = 0
      · obtain ⟨Y', r1, r2⟩ := ih k Y (fun i' k' => done i' k' ∨ (i' = k ∧ k' = i)) done' (by omega) hki
          (hY.mono fun i' k' _ h1 h => by
            rcases h with h | ⟨rfl, -⟩
            · exact h
            · omega) hd'
        refine ⟨Y', ?_, r2⟩
        simp only [yUp, hpr, Res.bind_ok, ne_eq, hne, not_false_eq_true, if_true, hX.rd hjn, Res.pure_eq,
          hcols, hnn, if_false, Int.toNat_natCast, hjk', hdk, hz, not_true_eq_false, wf.rd_posDof hkn]
        exact r1
      · obtain ⟨Y1, e1, hY1⟩ := hY.set (done' := fun i' k' => done i' k' ∨ (i' = k ∧ k' = i)) wf hkn hi hki
          (B := gram (mb.SAt k) (mb.phiUp q P k i)) (by simp [gram, wf.SAt_length hkn]) (by simp [gram, MultiBody.phiUp])
          (fun a c _ hc => gram_phiUp wf P k i hc) (fun _ _ h => h)
        obtain ⟨Y', r1, r2⟩ := ih k Y1 _ done' (by omega) hki hY1 hd'
        refine ⟨Y', ?_, r2⟩
        simp only [yUp, hpr, Res.bind_ok, ne_eq, hne, not_false_eq_true, if_true, hX.rd hjn, Res.pure_eq,
          hcols, hnn, if_false, Int.toNat_natCast, hjk', hdk, hz, wf.rd_posDof hkn, hS.rd hkn, e1]
        exact r1

/-- `computeY` fills the regressor. -/
theorem computeY_eq (wf : mb.WF) (hr : mb.Rigid) {mbc : MBC K} {q : List (List K)} (hq : ValidQ mb q) {v a : Nat → MotionVec K}
    (hX : Filled mbc.parentToSon (fun i => some (mb.ptsAt q i)) mb.bodies.length mb.bodies.length)
    (hS : Filled mbc.motionSubspace (fun i => some (mb.SAt i)) mb.bodies.length mb.bodies.length)
    (hv : Filled mbc.bodyVelB (fun i => some (v i)) mb.bodies.length mb.bodies.length)
    (ha : Filled mbc.bodyAccB (fun i => some (a i)) mb.bodies.length mb.bodies.length)
    {d : IDIM K} (hd : d.Fits mb) :
    ∃ d', d.computeY mb mbc = .ok d' ∧ YSpec mb q (fun k => bodyPhi (v k) (a k)) (fun i k => i ∈ pathUp mb.par k) d'.Y := by
  set P : Nat → List (ForceVec K) := fun k => bodyPhi (v k) (a k) with hP
  unfold IDIM.computeY
  refine (foldlM_range_reverse_inv (yStep mb mbc) (fun k Y => YSpec mb q P (fun i k' => k ≤ k' ∧ i ∈ pathUp mb.par k') Y)
    mb.bodies.length d.Y ⟨hd, fun i a k c hi hk _ _ h => absurd h.1 (by omega)⟩ ?_).elim ?_
  · intro i Y hi hY
    obtain ⟨j, hj, hdof⟩ := wf.rd_joint hi
    have hcols : setCols 10 (IMPhi (a i)) (fun c => do return (← rd (IMPhi (a i)) c) + (v i).crossDual (← rd (IMPhi (v i)) c)) =
        .ok (mb.phiUp q P i i) := by
      refine setCols_eq _ _ _ _ rfl fun c hc => ?_
      have b : c < (IMPhi (a i)).length := hc
      have b' : c < (IMPhi (v i)).length := hc
      simp only [rd_ok b, rd_ok b', Res.bind_ok, Res.pure_eq, mb.relAt_self hr hq, PTransform.one_transMul, hP, bodyPhi]
      rw [getD_range_map _ _ _ hc, List.getD_eq_getElem?_getD, List.getElem?_eq_getElem b, Option.getD_some,
        List.getD_eq_getElem?_getD, List.getElem?_eq_getElem b', Option.getD_some]
    simp only [Res.pure_eq] at hcols
    obtain ⟨Y1, e1, hY1⟩ := hY.set (done' := fun i' k' => (i + 1 ≤ k' ∧ i' ∈ pathUp mb.par k') ∨ (i' = i ∧ k' = i)) wf hi hi
      (self_mem_pathUp _ _) (B := gram (mb.SAt i) (mb.phiUp q P i i)) (by simp [gram, wf.SAt_length hi])
      (by simp [gram, MultiBody.phiUp]) (fun a c _ hc => gram_phiUp wf P i i hc) (fun _ _ h => h)
    obtain ⟨Y', r1, r2⟩ := yUp_eq wf hr hq P i hi hX hS (mb.bodies.length + 1) i Y1 _
      (fun i' k' => i ≤ k' ∧ i' ∈ pathUp mb.par k') (by omega) (self_mem_pathUp _ _) hY1 (by
        rintro i' k' ⟨h1, h2⟩
        rcases Nat.eq_or_lt_of_le h1 with rfl | h1
        · by_cases h : i' = i
          · exact .inl (.inr ⟨h, rfl⟩)
          · exact .inr ⟨rfl, h2, h⟩
        · exact .inl (.inl ⟨h1, h2⟩))
    refine ⟨Y', ?_, r2⟩
    simp only [yStep, hv.rd hi, ha.rd hi, Res.bind_ok, Res.pure_eq, hcols, wf.rd_posDof hi, hj, hdof, hS.rd hi, e1]
    exact r1
  · rintro Y ⟨e, hY⟩
    rw [e]
    exact ⟨⟨Y⟩, rfl, hY.mono fun i k _ _ h => ⟨Nat.zero_le _, h⟩⟩

/-! ### The stacked parameters -/

theorem getD_flatMap_ten {α β : Type} (f : α → List β) (hf : ∀ x, (f x).length = 10) (z : β) (l : List α) (k c : Nat) (hc : c < 10) :
    (l.flatMap f).getD (k * 10 + c) z = ((l[k]?).map fun x => (f x).getD c z).getD z := by
  induction l generalizing k with
  | nil => simp
  | cons x l ih =>
    rw [List.flatMap_cons, List.getD_eq_getElem?_getD]
    cases k with
    | zero =>
      rw [List.getElem?_append_left (by rw [hf]; omega)]
      simp [List.getD_eq_getElem?_getD]
    | succ k =>
      rw [List.getElem?_append_right (by rw [hf]; omega), hf, show (k + 1) * 10 + c - 10 = k * 10 + c by omega,
        ← List.getD_eq_getElem?_getD, ih]
      simp

theorem multiBodyToInertialVector_eq (junk : Nat → K) (mb : MultiBody K) :
    multiBodyToInertialVector junk mb = .ok (mb.bodies.flatMap fun b => inertiaToVector b.inertia) := by
  unfold multiBodyToInertialVector
  set f : Body K → List K := fun b => inertiaToVector b.inertia with hf
  have hlen : ∀ l : List (Body K), (l.flatMap f).length = l.length * 10 := by
    intro l
    induction l with
    | nil => rfl
    | cons x l ih => rw [List.flatMap_cons, List.length_append, ih, List.length_cons, hf, inertiaToVector_length]; omega
  have hnb : mb.nrBodies = mb.bodies.length := rfl
  rw [hnb]
  refine (foldlM_range_inv (fun vec i => do
    let b ← rd mb.bodies i
    setSegment vec (i * 10) 10 (inertiaToVector b.inertia)) (fun k vec => vec.length = mb.bodies.length * 10 ∧
      vec.take (k * 10) = (mb.bodies.take k).flatMap f) mb.bodies.length ((List.range (mb.bodies.length * 10)).map junk) ⟨by simp, by simp⟩ ?_).elim ?_
  · rintro i vec hi ⟨h1, h2⟩
    have hb : i * 10 + 10 ≤ vec.length := by omega
    simp only [rd_ok hi, Res.bind_ok, setSegment, hb, inertiaToVector_length, true_and, if_true, Except.ok.injEq, exists_eq_left']
    have hl : (vec.take (i * 10) ++ inertiaToVector (mb.bodies[i]).inertia).length = (i + 1) * 10 := by
      rw [List.length_append, List.length_take, inertiaToVector_length]; omega
    refine ⟨?_, ?_⟩
    · rw [List.length_append, hl, List.length_drop]; omega
    · rw [List.take_append_of_le_length (by omega), List.take_of_length_le (by omega), h2, List.take_add_one,
        List.getElem?_eq_getElem hi, List.flatMap_append]
      simp [hf]
  · rintro vec ⟨e, h1, h2⟩
    rw [List.take_of_length_le (by omega), List.take_length] at h2
    rw [← h2]; exact e

theorem sum_range_mul_ten (n : Nat) (g : Nat → K) :
    ∑ r ∈ Finset.range (n * 10), g r = ∑ k ∈ Finset.range n, ∑ c ∈ Finset.range 10, g (k * 10 + c) := by
  induction n with
  | zero => simp
  | succ n ih => rw [Nat.succ_mul, Finset.sum_range_add, ih,
    Finset.sum_range_succ (fun k => ∑ c ∈ Finset.range 10, g (k * 10 + c)) n]

/-- Regressor times parameters: the torque without external forces. -/
theorem YSpec.mul (wf : mb.WF) {q : List (List K)} {v a : Nat → MotionVec K} {Y : DMat K}
    (h : YSpec mb q (fun k => bodyPhi (v k) (a k)) (fun i k => i ∈ pathUp mb.par k) Y) {i x : Nat} (hi : i < mb.bodies.length)
    (hx : x < mb.dofAt i) :
    Y.mulVecAt (mb.bodies.flatMap fun b => inertiaToVector b.inertia) (mb.dofPosAt i + x) =
      ((mb.SAt i).getD x 0).dot (mb.wrenchAt q (fun k => (mb.inertiaAt k).mulMotion (a k) +
        (v k).crossDual ((mb.inertiaAt k).mulMotion (v k))) i) := by
  have hc : Y.cols = mb.bodies.length * 10 := h.1.cols
  unfold DMat.mulVecAt
  rw [hc, sum_range_mul_ten]
  unfold MultiBody.wrenchAt MultiBody.subtree
  rw [MotionVec.dot_sum, Finset.sum_filter]
  refine Finset.sum_congr rfl fun k hk => ?_
  have hk : k < mb.bodies.length := Finset.mem_range.1 hk
  have hphi : ∀ c, c < 10 → (mb.bodies.flatMap fun b => inertiaToVector b.inertia).getD (k * 10 + c) 0 =
      (inertiaToVector (mb.inertiaAt k)).getD c 0 := by
    intro c hc
    rw [getD_flatMap_ten (fun b : Body K => inertiaToVector b.inertia) (fun b => inertiaToVector_length b.inertia) _ _ _ _ hc]
    simp [MultiBody.inertiaAt, hk]
  by_cases hp : i ∈ pathUp mb.par k
  · rw [if_pos hp]
    dsimp only
    rw [← bodyPhi_mul]
    rw [← PTransform.transHom_apply, map_sum, MotionVec.dot_sum]
    refine Finset.sum_congr rfl fun c hc => ?_
    have hc := Finset.mem_range.1 hc
    rw [h.2 i x k c hi hk hx hc hp, hphi c hc, PTransform.transHom_apply, PTransform.transMul_smul, MotionVec.dot_smul, mul_comm]
    rfl
  · rw [if_neg hp]
    refine Finset.sum_eq_zero fun c hc => ?_
    rw [h.1.zero i x k c hi hk hx (Finset.mem_range.1 hc) hp, zero_mul]

/-! ### Inverse statics -/

/-- One step of the backward loop of `inverseStatics` does what one step of `computeJointTorques` does. -/
theorem isBackStep_eq (mb : MultiBody K) {s : ID K × MBC K} {i : Nat} {j : Joint K} {S : List (MotionVec K)} {t : List K}
    (hj : rd mb.joints i = .ok j) (hS : rd s.2.motionSubspace i = .ok S) (ht : rd s.2.jointTorque i = .ok t)
    (h1 : S.length = j.dof) (h2 : t.length = j.dof) {fi : ForceVec K} (hf : rd s.1.f i = .ok fi) :
    isBackStep mb s i = torqueStep mb s i := by
  obtain ⟨d, m⟩ := s
  have hp := projectInto_eq S fi t h1 h2
  simp only at hS ht hf
  simp only [isBackStep, torqueStep, hj, hS, ht, hf, Res.bind_ok, hp, h1, h2, le_refl, and_self, if_true,
    List.drop_of_length_le (Nat.le_of_eq h2), List.append_nil]

/-- What the backward loop of `inverseStatics` does to its memory and to a configuration, for given forces. -/
theorem isTorques_eq (wf : mb.WF) {mbc : MBC K} {q : List (List K)} {d : ID K} {f sub : Nat → ForceVec K} {n : Nat}
    (hn : n = mb.bodies.length) (ht : SizedDof mb mbc.jointTorque)
    (hX : Filled mbc.parentToSon (fun i => some (mb.ptsAt q i)) n n)
    (hS : Filled mbc.motionSubspace (fun i => some (mb.SAt i)) n n)
    (hd : Filled d.f (fun i => some (f i)) n n)
    (hs : SubRec mb.par (fun c => (mb.ptsAt q c).transMul) f sub n) :
    (List.range mb.joints.length).reverse.foldlM (isBackStep mb) (d, mbc) = .ok (⟨(List.range n).map sub⟩,
      { mbc with jointTorque := (List.range n).map fun i => mb.project i (sub i) }) := by
  rw [wf.njoints, ← hn]
  have htl : mbc.jointTorque.length = n := by rw [ht.length, wf.njoints, hn]
  refine (foldlM_range_reverse_inv (isBackStep mb) (fun k s =>
    Accum mb.par (fun c => (mb.ptsAt q c).transMul) f sub s.1.f k n ∧
    FilledFrom s.2.jointTorque (fun i => mb.project i (sub i)) k n ∧
    (∀ i, i < k → s.2.jointTorque[i]? = mbc.jointTorque[i]?) ∧
    s.2 = { mbc with jointTorque := s.2.jointTorque }) n (d, mbc)
    ⟨.start hd, .start htl, fun _ _ => rfl, rfl⟩ ?_).elim ?_
  · rintro i ⟨d', s⟩ hi ⟨f1, f2, f3, e⟩
    dsimp only at f1 f2 f3 e
    have hi' : i < mb.bodies.length := hn ▸ hi
    obtain ⟨j, hj, hdof⟩ := wf.rd_joint hi'
    have hf := f1.get wf.par_lt hs hi
    have hf' : rd d'.f i = .ok (sub i) := rd_of_getElem? hf
    have hXs : rd s.parentToSon i = .ok (mb.ptsAt q i) := by rw [e]; exact hX.rd hi
    have hSs : rd s.motionSubspace i = .ok (mb.SAt i) := by rw [e]; exact hS.rd hi
    obtain ⟨t, ht1, ht2⟩ := ht.rd_length wf hi'
    have htt : rd s.jointTorque i = .ok t := by
      rw [rd_eq_ok_iff] at ht1 ⊢
      rw [f3 i (by omega)]; exact ht1
    have b1 : i < s.jointTorque.length := by rw [f2.1]; exact hi
    have hp := projectInto_eq (mb.SAt i) (sub i) t (wf.SAt_length hi') ht2
    rw [← hdof] at hp
    have hstep := isBackStep_eq mb (s := (d', s)) hj hSs htt (by rw [wf.SAt_length hi', hdof]) (by rw [ht2, hdof]) hf'
    rw [hstep]
    have f2' := f2.set (a := (mb.SAt i).map fun c => c.dot (sub i)) hi rfl
    have f3' : ∀ m, m < i → (s.jointTorque.set i ((mb.SAt i).map fun c => c.dot (sub i)))[m]? = mbc.jointTorque[m]? := by
      intro m hm
      rw [List.getElem?_set_ne (by omega)]
      exact f3 m (by omega)
    obtain ⟨p, hpr, ⟨rfl, hpar⟩ | ⟨k, rfl, hpar, hk⟩⟩ := wf.pred_cases hi'
    · simp only [torqueStep, hj, hf', hSs, htt, hp, hpr, wr_ok b1, Res.bind_ok, ne_eq, not_true_eq_false, if_false, Res.pure_eq,
        Except.ok.injEq, exists_eq_left']
      exact ⟨f1.skip hpar, f2', f3', by rw [e]⟩
    · have hne : ((k : Int) ≠ -1) := by omega
      have bk : k < d'.f.length := by rw [f1.1]; omega
      simp only [torqueStep, hj, hf', hSs, htt, hp, hpr, hXs, wr_ok b1, Res.bind_ok, ne_eq, hne, not_false_eq_true, if_true,
        rdI_ofNat, wrI_ofNat, rd_ok bk, wr_ok bk, Res.pure_eq, Except.ok.injEq, exists_eq_left']
      exact ⟨f1.step hi hpar (by omega) (List.getElem?_eq_getElem bk), f2', f3', by rw [e]⟩
  · rintro ⟨d', s⟩ ⟨h, f1, f2, -, e⟩
    rw [h]
    simp only at f1 f2 e
    have e1 := f1.range_map wf.par_lt hs
    rw [e, f2.range_map, ← e1]


/-- Inverse statics computes the wrenches of weight and external forces, and their projections. -/
theorem is_eq (wf : mb.WF) (hr : mb.Rigid) {mbc : MBC K} (sz : mbc.Sized mb) (hq : ValidQ mb mbc.q) (hv : mbc.PosReady mb)
    {d : ID K} (hd : d.f.length = mb.bodies.length) {net : Nat → ForceVec K}
    (hnet : net = fun k => (mb.inertiaAt k).mulMotion ((mb.posAt mbc.q k).mulMotion ⟨0, mbc.gravity⟩) -
      (mb.posAt mbc.q k).dualMul (mbc.forceAt k)) :
    inverseStatics d mb mbc = .ok (⟨(List.range mb.bodies.length).map (mb.wrenchAt mbc.q net)⟩,
      { mbc with
        bodyAccB := (List.range mb.bodies.length).map fun k => (mb.posAt mbc.q k).mulMotion ⟨0, mbc.gravity⟩
        jointTorque := (List.range mb.bodies.length).map fun i => mb.project i (mb.wrenchAt mbc.q net i) }) := by
  unfold inverseStatics
  have hW : Filled mbc.bodyPosW (fun i => some (mb.posAt mbc.q i)) mb.bodies.length mb.bodies.length := by
    rw [hv.bodyPosW]; exact .of_range_map
  refine (foldlM_range_inv (isStep mb) (fun k s =>
    Filled s.1.f (fun i => some (net i)) k mb.bodies.length ∧
    Filled s.2.bodyAccB (fun i => some ((mb.posAt mbc.q i).mulMotion ⟨0, mbc.gravity⟩)) k mb.bodies.length ∧
    s.2 = { mbc with bodyAccB := s.2.bodyAccB }) mb.bodies.length (d, mbc) ⟨.zero hd, .zero sz.bodyAccB, rfl⟩ ?_).elim ?_
  · rintro i ⟨d', s⟩ hi ⟨f1, f2, e⟩
    dsimp only at f1 f2 e
    have hWs : rd s.bodyPosW i = .ok (mb.posAt mbc.q i) := by rw [e]; exact hW.rd hi
    have hfs : rd s.force i = .ok (mbc.forceAt i) := by
      have : i < mbc.force.length := by rw [sz.force]; exact hi
      rw [e, rd_ok this]; simp [MBC.forceAt, this]
    have hg : s.gravity = mbc.gravity := by rw [e]
    obtain ⟨b, hbd, hI⟩ := mb.rd_body hi
    have b1 : i < s.bodyAccB.length := by rw [f2.1]; exact hi
    have b2 : i < d'.f.length := by rw [f1.1]; exact hi
    simp only [isStep, hWs, hg, wr_ok b1, hbd, hfs, wr_ok b2, hI, Res.bind_ok, Res.pure_eq, Except.ok.injEq, exists_eq_left']
    exact ⟨f1.set hi (by rw [hnet]), f2.set hi rfl, by rw [e]⟩
  · rintro ⟨d', s⟩ ⟨h, f1, f2, e⟩
    dsimp only at f1 f2 e
    rw [h]
    simp only [Res.bind_ok]
    rw [e, ← f2.range_map]
    exact isTorques_eq (q := mbc.q) (f := net) wf rfl sz.jointTorque (by simp only [hv.parentToSon]; exact .of_range_map)
      (by simp only [hv.motionSubspace]; exact .of_range_map) f1 (wf.wrenchAt_rec hr hq net)

/-- At rest the velocities vanish. -/
theorem MultiBody.jointMotion_rest (mb : MultiBody K) {a : List (List K)} (h : ∀ l ∈ a, ∀ x ∈ l, x = 0) (i : Nat) :
    mb.jointMotion a i = 0 := by
  have : ∀ (S : List (MotionVec K)) (l : List K), (∀ x ∈ l, x = 0) → applyCols S l = 0 := by
    intro S
    induction S with
    | nil => intro l _; simp [applyCols]
    | cons c S ih =>
      intro l hl
      cases l with
      | nil => simp [applyCols]
      | cons x l =>
        have := ih l fun y hy => hl y (List.mem_cons_of_mem _ hy)
        simp only [applyCols] at this ⊢
        simp [this, hl x (List.mem_cons_self ..)]
  unfold MultiBody.jointMotion
  refine this _ _ ?_
  cases e : a[i]? with
  | none => simp
  | some l => exact h l (List.mem_of_getElem? e)

theorem MultiBody.velAt_rest (mb : MultiBody K) (q : List (List K)) {a : List (List K)} (h : ∀ l ∈ a, ∀ x ∈ l, x = 0) (i : Nat) :
    mb.velAt q a i = 0 := by
  unfold MultiBody.velAt
  exact Finset.sum_eq_zero fun k _ => by rw [mb.jointMotion_rest h, PTransform.mulMotion_zero]

theorem MultiBody.accAt_rest (mb : MultiBody K) (q : List (List K)) {a b : List (List K)} (h : ∀ l ∈ a, ∀ x ∈ l, x = 0)
    (h' : ∀ l ∈ b, ∀ x ∈ l, x = 0) (a0 : MotionVec K) (i : Nat) : mb.accAt q a b a0 i = (mb.posAt q i).mulMotion a0 := by
  unfold MultiBody.accAt
  rw [Finset.sum_eq_zero, add_zero]
  intro k _
  rw [mb.jointMotion_rest h, mb.jointMotion_rest h', mb.velAt_rest q h]
  simp

end RBDyn
