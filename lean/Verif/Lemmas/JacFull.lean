import Verif.Lemmas.JacDot

/-! Expanding the matrices of a path to all degrees of freedom. -/

namespace RBDyn
variable {K : Type} [Scalar K] {mb : MultiBody K}

/-- Entry `c` of the vector in which entry `k` of `f` is added at position `idx[k]`. -/
def scat (idx : List Nat) (f : Nat → K) (c : Nat) : K := ∑ k ∈ Finset.range idx.length, if idx.getD k 0 = c then f k else 0

@[simp] theorem scat_nil (f : Nat → K) (c : Nat) : scat [] f c = 0 := by simp [scat]

theorem scat_append (l l' : List Nat) (f : Nat → K) (c : Nat) :
    scat (l ++ l') f c = scat l f c + scat l' (fun k => f (l.length + k)) c := by
  unfold scat
  rw [List.length_append, Finset.sum_range_add]
  congr 1
  · refine Finset.sum_congr rfl fun k hk => ?_
    rw [Finset.mem_range] at hk
    rw [List.getD_eq_getElem?_getD, List.getElem?_append_left hk, List.getD_eq_getElem?_getD]
  · refine Finset.sum_congr rfl fun k _ => ?_
    rw [List.getD_eq_getElem?_getD, List.getElem?_append_right (by omega), List.getD_eq_getElem?_getD, Nat.add_sub_cancel_left]

theorem scat_segment (p n : Nat) (f : Nat → K) (c : Nat) :
    scat ((List.range n).map (p + ·)) f c = if p ≤ c ∧ c < p + n then f (c - p) else 0 := by
  unfold scat
  rw [List.length_map, List.length_range]
  split
  · rename_i h
    rw [Finset.sum_eq_single (c - p)]
    · rw [if_pos]
      rw [List.getD_eq_getElem?_getD, range_map_getElem? (by omega), Option.getD_some]; omega
    · intro k hk hne
      rw [Finset.mem_range] at hk
      rw [if_neg]
      rw [List.getD_eq_getElem?_getD, range_map_getElem? hk, Option.getD_some]; omega
    · intro h'
      rw [Finset.mem_range] at h'; omega
  · rename_i h
    refine Finset.sum_eq_zero fun k hk => ?_
    rw [Finset.mem_range] at hk
    rw [if_neg]
    rw [List.getD_eq_getElem?_getD, range_map_getElem? hk, Option.getD_some]; omega

theorem scat_congr {idx : List Nat} {f g : Nat → K} (h : ∀ k, k < idx.length → f k = g k) (c : Nat) : scat idx f c = scat idx g c :=
  Finset.sum_congr rfl fun k hk => by rw [h k (Finset.mem_range.1 hk)]

/-- Summing a scattered vector against another vector. -/
theorem sum_scat {idx : List Nat} {n : Nat} (h : ∀ i ∈ idx, i < n) (f g : Nat → K) :
    ∑ c ∈ Finset.range n, scat idx f c * g c = ∑ k ∈ Finset.range idx.length, f k * g (idx.getD k 0) := by
  unfold scat
  simp only [Finset.sum_mul]
  rw [Finset.sum_comm]
  refine Finset.sum_congr rfl fun k hk => ?_
  rw [Finset.mem_range] at hk
  rw [Finset.sum_eq_single (idx.getD k 0)]
  · rw [if_pos rfl]
  · intro c _ hne
    rw [if_neg (Ne.symm hne), zero_mul]
  · intro h'
    exact absurd (Finset.mem_range.2 (h _ (getD_mem hk))) h'

/-! ### Blocks -/

/-- The positions of the columns of a list of blocks. -/
def blkIdx (bs : List Blk) : List Nat := bs.flatMap fun b => (List.range b.length).map (b.startDof + ·)

/-- The columns of the blocks follow one another in the compact matrix, beginning at `off`. -/
def Packed : List Blk → Nat → Prop
  | [], _ => True
  | b :: l, off => b.startJac = off ∧ Packed l (off + b.length)

theorem blkIdx_cons (b : Blk) (l : List Blk) : blkIdx (b :: l) = (List.range b.length).map (b.startDof + ·) ++ blkIdx l := rfl

theorem blkIdx_length (bs : List Blk) : (blkIdx bs).length = (bs.map (·.length)).sum := by
  unfold blkIdx
  rw [List.length_flatMap]
  simp

theorem Packed.append {l l' : List Blk} {off : Nat} (h : Packed l off) (h' : Packed l' (off + (blkIdx l).length)) :
    Packed (l ++ l') off := by
  induction l generalizing off with
  | nil => simpa [blkIdx] using h'
  | cons b l ih =>
    refine ⟨h.1, ih h.2 ?_⟩
    rw [blkIdx_cons, List.length_append, List.length_map, List.length_range, ← Nat.add_assoc] at h'
    exact h'

theorem addFullBlocks_eq (bs : List Blk) : ∀ (off : Nat) (jac res : DMat K), Packed bs off →
    (∀ b ∈ bs, b.startDof + b.length ≤ res.cols) → jac.rows ≤ res.rows → off + (blkIdx bs).length ≤ jac.cols →
    addFullBlocks bs jac res = .ok ⟨res.rows, res.cols, fun r c =>
      if r < jac.rows then res.get r c + scat (blkIdx bs) (fun k => jac.get r (off + k)) c else res.get r c⟩ := by
  induction bs with
  | nil =>
    intro off jac res _ _ _ _
    simp [addFullBlocks, blkIdx]
  | cons b l ih =>
    intro off jac res hp hd hrow hjac
    obtain ⟨h1, h2⟩ := hp
    rw [blkIdx_cons, List.length_append, List.length_map, List.length_range] at hjac
    unfold addFullBlocks
    rw [List.foldlM_cons, DMat.block, if_pos ⟨by omega, by omega⟩, Res.bind_ok, DMat.addBlock,
      if_pos ⟨by omega, hd b (by simp), rfl, rfl⟩, Res.bind_ok]
    refine Eq.trans (ih (off + b.length) jac _ h2 (by exact fun b' hb' => hd b' (by simp [hb'])) (by exact hrow) (by omega)) ?_
    congr 2
    funext r c
    simp only [blkIdx_cons, scat_append, scat_segment, List.length_map, List.length_range]
    by_cases hr : r < jac.rows
    · by_cases hc : b.startDof ≤ c ∧ c < b.startDof + b.length
      · rw [if_pos hr, if_pos hr, if_pos ⟨by omega, by omega, hc.1, hc.2⟩, if_pos hc, add_assoc, h1]
        simp only [Nat.sub_zero, Nat.zero_add, Nat.add_assoc]
      · rw [if_pos hr, if_pos hr, if_neg (by omega), if_neg hc, zero_add]
        simp only [Nat.add_assoc]
    · rw [if_neg hr, if_neg hr, if_neg (by omega)]

/-! ### Blocks of a path -/

/-- One block per joint of the path. -/
def MultiBody.pathSegs (mb : MultiBody K) : List Nat → Nat → List Blk
  | [], _ => []
  | i :: l, off => ⟨mb.dofPosAt i, off, mb.dofAt i⟩ :: mb.pathSegs l (off + mb.dofAt i)

theorem MultiBody.pathSegs_packed (path : List Nat) (off : Nat) : Packed (mb.pathSegs path off) off := by
  induction path generalizing off with
  | nil => trivial
  | cons i l ih => exact ⟨rfl, ih _⟩

theorem MultiBody.pathSegs_idx (path : List Nat) (off : Nat) : blkIdx (mb.pathSegs path off) = mb.dofIdx path := by
  induction path generalizing off with
  | nil => rfl
  | cons i l ih => rw [MultiBody.pathSegs, blkIdx_cons, ih]; rfl

theorem MultiBody.dofIdx_length (path : List Nat) : (mb.dofIdx path).length = (path.map mb.dofAt).sum := by
  unfold MultiBody.dofIdx
  rw [List.length_flatMap]
  simp

theorem MultiBody.WF.pathSegs_le (wf : mb.WF) {path : List Nat} (hp : ∀ i ∈ path, i < mb.bodies.length) (off : Nat) :
    ∀ b ∈ mb.pathSegs path off, b.startDof + b.length ≤ mb.nrDof := by
  induction path generalizing off with
  | nil => intro b hb; simp [MultiBody.pathSegs] at hb
  | cons i l ih =>
    intro b hb
    rw [MultiBody.pathSegs, List.mem_cons] at hb
    rcases hb with rfl | hb
    · exact wf.dofPosAt_add_le (hp i (by simp))
    · exact ih (fun i hi => hp i (by simp [hi])) _ b hb

theorem MultiBody.WF.dofIdx_lt (wf : mb.WF) {path : List Nat} (hp : ∀ i ∈ path, i < mb.bodies.length) :
    ∀ c ∈ mb.dofIdx path, c < mb.nrDof := by
  intro c hc
  simp only [MultiBody.dofIdx, List.mem_flatMap, List.mem_map, List.mem_range] at hc
  obtain ⟨i, hi, a, ha, rfl⟩ := hc
  have := wf.dofPosAt_add_le (hp i hi)
  omega

theorem MultiBody.WF.rd_posDof' (wf : mb.WF) {i : Nat} (hi : i < mb.bodies.length) : rd mb.jointPosInDof i = .ok (mb.dofPosAt i) :=
  rd_of_getElem? (wf.posDof i (by rw [wf.njoints]; exact hi))

theorem Jac.addFullJacobian_segs (wf : mb.WF) {J : Jac K} (hp : ∀ i ∈ J.path, i < mb.bodies.length) (jac res : DMat K) :
    J.addFullJacobian mb jac res = addFullBlocks (mb.pathSegs J.path 0) jac res := by
  have key : ∀ (path : List Nat), (∀ i ∈ path, i < mb.bodies.length) → ∀ (off : Nat) (res : DMat K),
      path.foldlM (fun (s : DMat K × Nat) i => do
        let j ← rd mb.joints i
        let b ← jac.block 0 s.2 jac.rows j.dof
        return (← s.1.addBlock 0 (← rd mb.jointPosInDof i) jac.rows j.dof b, s.2 + j.dof)) (res, off) =
      (do return (← addFullBlocks (mb.pathSegs path off) jac res, off + (path.map mb.dofAt).sum)) := by
    intro path
    induction path with
    | nil => intro _ off res; simp [addFullBlocks, MultiBody.pathSegs]
    | cons i l ih =>
      intro hp off res
      have hi := hp i (by simp)
      obtain ⟨j, hj, hd⟩ := wf.rd_joint hi
      rw [List.foldlM_cons, MultiBody.pathSegs, addFullBlocks, List.foldlM_cons]
      simp only [hj, Res.bind_ok, wf.rd_posDof' hi, hd]
      cases h1 : jac.block 0 off jac.rows (mb.dofAt i) with
      | error e => rfl
      | ok b =>
        simp only [Res.bind_ok]
        cases h2 : res.addBlock 0 (mb.dofPosAt i) jac.rows (mb.dofAt i) b with
        | error e => rfl
        | ok m =>
          simp only [Res.bind_ok, Res.pure_eq]
          have := ih (fun i hi => hp i (by simp [hi])) (off + mb.dofAt i) m
          simp only [Res.pure_eq] at this
          rw [this, List.map_cons, List.sum_cons, ← Nat.add_assoc]
          rfl
  unfold Jac.addFullJacobian
  have h1 := foldlM_range_rd (fun (s : DMat K × Nat) i => do
        let j ← rd mb.joints i
        let b ← jac.block 0 s.2 jac.rows j.dof
        return (← s.1.addBlock 0 (← rd mb.jointPosInDof i) jac.rows j.dof b, s.2 + j.dof)) J.path (res, 0)
  rw [h1, key J.path hp 0 res]
  cases addFullBlocks (mb.pathSegs J.path 0) jac res <;> rfl

/-- `addFullJacobian`, entry by entry. -/
theorem Jac.addFullJacobian_eq (wf : mb.WF) {J : Jac K} (hp : ∀ i ∈ J.path, i < mb.bodies.length) {jac res : DMat K}
    (hc : mb.nrDof ≤ res.cols) (hrow : jac.rows ≤ res.rows) (hjac : (J.path.map mb.dofAt).sum ≤ jac.cols) :
    J.addFullJacobian mb jac res = .ok ⟨res.rows, res.cols, fun r c =>
      if r < jac.rows then res.get r c + scat (mb.dofIdx J.path) (jac.get r) c else res.get r c⟩ := by
  rw [J.addFullJacobian_segs wf hp, addFullBlocks_eq _ 0 jac res (mb.pathSegs_packed _ _)
    (fun b hb => (wf.pathSegs_le hp 0 b hb).trans hc) hrow (by rw [mb.pathSegs_idx, mb.dofIdx_length]; omega), mb.pathSegs_idx]
  simp only [Nat.zero_add]

/-- `fullJacobian`, entry by entry. -/
theorem Jac.fullJacobian_eq (wf : mb.WF) {J : Jac K} (hp : ∀ i ∈ J.path, i < mb.bodies.length) {jac res : DMat K}
    (hc : mb.nrDof ≤ res.cols) (hrow : jac.rows ≤ res.rows) (hjac : (J.path.map mb.dofAt).sum ≤ jac.cols) :
    ∃ m, J.fullJacobian mb jac res = .ok m ∧ m.rows = res.rows ∧ m.cols = res.cols ∧
      (∀ r c, r < jac.rows → c < mb.nrDof → m.get r c = scat (mb.dofIdx J.path) (jac.get r) c) ∧
      ∀ r c, ¬ (r < jac.rows ∧ c < mb.nrDof) → m.get r c = res.get r c := by
  unfold Jac.fullJacobian DMat.zeroBlock DMat.setBlock
  rw [if_pos ⟨by omega, by omega, rfl, rfl⟩, Res.bind_ok]
  rw [J.addFullJacobian_eq wf hp (by exact hc) (by exact hrow) hjac]
  refine ⟨_, rfl, rfl, rfl, fun r c hr hcc => ?_, fun r c h => ?_⟩
  · dsimp only
    rw [if_pos hr, if_pos ⟨by omega, by omega, by omega, by omega⟩, zero_add]
  · dsimp only
    rw [if_neg (by omega : ¬ (0 ≤ r ∧ r < 0 + jac.rows ∧ 0 ≤ c ∧ c < 0 + mb.nrDof))]
    split
    · rename_i hr
      have hcc : ¬ c < mb.nrDof := fun h' => h ⟨hr, h'⟩
      have : scat (mb.dofIdx J.path) (jac.get r) c = 0 := by
        refine Finset.sum_eq_zero fun k hk => ?_
        rw [Finset.mem_range] at hk
        rw [if_neg]
        rintro rfl
        exact hcc (wf.dofIdx_lt hp _ (getD_mem hk))
      rw [this, add_zero]
    · rfl

/-! ### Compact paths -/

theorem blkIdx_append (l l' : List Blk) : blkIdx (l ++ l') = blkIdx l ++ blkIdx l' := by
  unfold blkIdx; rw [List.flatMap_append]

/-- `compactPath`: the blocks are the joints of the path, with neighbouring positions merged. -/
theorem Jac.compactPath_eq (wf : mb.WF) {J : Jac K} (hp : ∀ i ∈ J.path, i < mb.bodies.length) (hne : J.path ≠ []) :
    ∃ bs, J.compactPath mb = .ok bs ∧ Packed bs 0 ∧ blkIdx bs = mb.dofIdx J.path ∧
      ∀ b ∈ bs, b.startDof + b.length ≤ mb.nrDof := by
  unfold Jac.compactPath
  obtain ⟨i, l, hl⟩ : ∃ i l, J.path = i :: l := List.exists_cons_of_ne_nil hne
  rw [hl] at hp ⊢
  have hi := hp i (by simp)
  obtain ⟨j, hj, hd⟩ := wf.rd_joint hi
  have h0 : rd (i :: l) 0 = .ok i := rfl
  have hdrop : (i :: l).drop 1 = l := rfl
  simp only [h0, Res.bind_ok, wf.rd_posDof' hi, hj, hd, hdrop]
  refine (foldlM_list_inv (compactStep mb) l (fun k s => Packed s.1 0 ∧ s.2.2.2 = (blkIdx s.1).length ∧
    blkIdx s.1 ++ (List.range s.2.2.1).map (s.2.1 + ·) = mb.dofIdx (i :: l.take k) ∧
    (∀ b ∈ s.1, b.startDof + b.length ≤ mb.nrDof) ∧ s.2.1 + s.2.2.1 ≤ mb.nrDof) ([], mb.dofPosAt i, mb.dofAt i, 0)
    ⟨trivial, rfl, by simp [blkIdx, MultiBody.dofIdx], by simp, wf.dofPosAt_add_le hi⟩ ?_).elim ?_
  · rintro k ⟨res, sb, lb, sj⟩ hk ⟨h1, h2, h3, h4, h5⟩
    dsimp only at h1 h2 h3 h4 h5
    have hk' := hp l[k] (by simp)
    obtain ⟨j, hj, hd⟩ := wf.rd_joint hk'
    have hle := wf.dofPosAt_add_le hk'
    have e : mb.dofIdx (i :: l.take (k + 1)) = mb.dofIdx (i :: l.take k) ++ (List.range (mb.dofAt l[k])).map (mb.dofPosAt l[k] + ·) := by
      rw [List.take_add_one, List.getElem?_eq_getElem hk, ← List.cons_append]
      unfold MultiBody.dofIdx
      rw [List.flatMap_append]
      simp
    unfold compactStep
    simp only [wf.rd_posDof' hk', hj, Res.bind_ok, hd]
    split
    · refine ⟨_, rfl, ?_, ?_, ?_, ?_, hle⟩
      · exact h1.append ⟨by dsimp only; omega, trivial⟩
      · simp [blkIdx_append, blkIdx, h2]
      · dsimp only
        rw [e, ← h3, blkIdx_append]
        simp [blkIdx]
      · intro b hb
        rw [List.mem_append, List.mem_singleton] at hb
        rcases hb with hb | rfl
        · exact h4 b hb
        · exact h5
    · rename_i hst
      have hst : mb.dofPosAt l[k] = sb + lb := by simpa using hst
      refine ⟨_, rfl, h1, h2, ?_, h4, by dsimp only; omega⟩
      dsimp only
      rw [e, ← h3, List.range_add, List.map_append, List.append_assoc, hst]
      congr 2
      simp [Function.comp_def, Nat.add_assoc]
  · rintro ⟨res, sb, lb, sj⟩ ⟨hs, h1, h2, h3, h4, h5⟩
    dsimp only at h1 h2 h3 h4 h5
    rw [hs, Res.bind_ok]
    refine ⟨_, rfl, ?_, ?_, ?_⟩
    · exact h1.append ⟨by dsimp only; omega, trivial⟩
    · rw [List.take_length] at h3
      rw [blkIdx_append, ← h3]
      simp [blkIdx]
    · intro b hb
      rw [List.mem_append, List.mem_singleton] at hb
      rcases hb with hb | rfl
      · exact h4 b hb
      · exact h5

/-! ### Square matrices -/

theorem expandInner_eq (jac : DMat K) (b1 : Blk) (bs : List Blk) : ∀ (off : Nat) (res : DMat K), Packed bs off →
    (∀ b ∈ bs, b.startDof + b.length ≤ res.cols) → b1.startDof + b1.length ≤ res.rows → b1.startJac + b1.length ≤ jac.rows →
    off + (blkIdx bs).length ≤ jac.cols →
    bs.foldlM (fun res b2 => do
      res.addBlock b1.startDof b2.startDof b1.length b2.length
        (← jac.block b1.startJac b2.startJac b1.length b2.length)) res = .ok ⟨res.rows, res.cols, fun r c =>
      res.get r c + if b1.startDof ≤ r ∧ r < b1.startDof + b1.length then
        scat (blkIdx bs) (fun l => jac.get (b1.startJac + (r - b1.startDof)) (off + l)) c else 0⟩ := by
  induction bs with
  | nil => intro off res _ _ _ _ _; simp [blkIdx]
  | cons b l ih =>
    intro off res hp hd h1 h2 h3
    obtain ⟨hp1, hp2⟩ := hp
    rw [blkIdx_cons, List.length_append, List.length_map, List.length_range] at h3
    rw [List.foldlM_cons, DMat.block, if_pos ⟨by omega, by omega⟩, Res.bind_ok, DMat.addBlock,
      if_pos ⟨by omega, hd b (by simp), rfl, rfl⟩, Res.bind_ok]
    refine Eq.trans (ih (off + b.length) _ hp2 (by exact fun b' hb' => hd b' (by simp [hb'])) (by exact h1) h2 (by omega)) ?_
    congr 2
    funext r c
    simp only [blkIdx_cons, scat_append, scat_segment, List.length_map, List.length_range]
    by_cases hr : b1.startDof ≤ r ∧ r < b1.startDof + b1.length
    · by_cases hc : b.startDof ≤ c ∧ c < b.startDof + b.length
      · rw [if_pos hr, if_pos hr, if_pos ⟨hr.1, hr.2, hc.1, hc.2⟩, if_pos hc, add_assoc, hp1]
        simp only [Nat.add_assoc]
      · rw [if_pos hr, if_pos hr, if_neg (by omega), if_neg hc, zero_add]
        simp only [Nat.add_assoc]
    · rw [if_neg hr, if_neg hr, if_neg (by omega)]

theorem expandOuter_eq (jac : DMat K) (bs2 : List Blk) (h2 : Packed bs2 0) (hj2 : (blkIdx bs2).length ≤ jac.cols) (bs : List Blk) :
    ∀ (off : Nat) (res : DMat K), Packed bs off → (∀ b ∈ bs, b.startDof + b.length ≤ res.rows) →
    (∀ b ∈ bs2, b.startDof + b.length ≤ res.cols) → off + (blkIdx bs).length ≤ jac.rows →
    bs.foldlM (fun res b1 => bs2.foldlM (fun res b2 => do
      res.addBlock b1.startDof b2.startDof b1.length b2.length
        (← jac.block b1.startJac b2.startJac b1.length b2.length)) res) res = .ok ⟨res.rows, res.cols, fun r c =>
      res.get r c + scat (blkIdx bs) (fun k => scat (blkIdx bs2) (jac.get (off + k)) c) r⟩ := by
  induction bs with
  | nil => intro off res _ _ _ _; simp [blkIdx]
  | cons b l ih =>
    intro off res hp hd hd2 h3
    obtain ⟨hp1, hp2⟩ := hp
    rw [blkIdx_cons, List.length_append, List.length_map, List.length_range] at h3
    rw [List.foldlM_cons, expandInner_eq jac b bs2 0 res h2 hd2 (hd b (by simp)) (by omega) (by omega), Res.bind_ok]
    refine Eq.trans (ih (off + b.length) _ hp2 (by exact fun b' hb' => hd b' (by simp [hb'])) (by exact hd2) (by omega)) ?_
    congr 2
    funext r c
    dsimp only
    rw [blkIdx_cons, scat_append, scat_segment, List.length_map, List.length_range, hp1, add_assoc]
    simp only [Nat.zero_add, Nat.add_assoc]

theorem Jac.expandAdd_segs (wf : mb.WF) {J : Jac K} (hp : ∀ i ∈ J.path, i < mb.bodies.length) (jac res : DMat K) (hc : res.cols = mb.nrDof)
    (hrow : res.rows = mb.nrDof) :
    J.expandAdd mb jac res = expandAddBlocks (mb.pathSegs J.path 0) jac res := by
  have inner : ∀ (i off1 : Nat), i < mb.bodies.length → ∀ (path : List Nat), (∀ i ∈ path, i < mb.bodies.length) →
      ∀ (off : Nat) (res : DMat K),
      path.foldlM (fun (s' : DMat K × Nat) j => do
        let jj ← rd mb.joints j
        let b ← jac.block off1 s'.2 (mb.dofAt i) jj.dof
        return (← s'.1.addBlock (mb.dofPosAt i) (← rd mb.jointPosInDof j) (mb.dofAt i) jj.dof b, s'.2 + jj.dof)) (res, off) =
      (do return (← (mb.pathSegs path off).foldlM (fun res b2 => do
        res.addBlock (mb.dofPosAt i) b2.startDof (mb.dofAt i) b2.length
          (← jac.block off1 b2.startJac (mb.dofAt i) b2.length)) res, off + (path.map mb.dofAt).sum)) := by
    intro i off1 hi path
    induction path with
    | nil => intro _ off res; simp [MultiBody.pathSegs]
    | cons k l ih =>
      intro hp off res
      have hk := hp k (by simp)
      obtain ⟨j, hj, hd⟩ := wf.rd_joint hk
      rw [List.foldlM_cons, MultiBody.pathSegs, List.foldlM_cons]
      simp only [hj, Res.bind_ok, wf.rd_posDof' hk, hd]
      cases h1 : jac.block off1 off (mb.dofAt i) (mb.dofAt k) with
      | error e => rfl
      | ok b =>
        simp only [Res.bind_ok]
        cases h2 : res.addBlock (mb.dofPosAt i) (mb.dofPosAt k) (mb.dofAt i) (mb.dofAt k) b with
        | error e => rfl
        | ok m =>
          simp only [Res.bind_ok, Res.pure_eq]
          have := ih (fun i hi => hp i (by simp [hi])) (off + mb.dofAt k) m
          simp only [Res.pure_eq] at this
          rw [this, List.map_cons, List.sum_cons, ← Nat.add_assoc]
  have outer : ∀ (path : List Nat), (∀ i ∈ path, i < mb.bodies.length) → ∀ (off : Nat) (res : DMat K),
      path.foldlM (fun (s : DMat K × Nat) i => do
        let ji ← rd mb.joints i
        let (res, _) ← J.path.foldlM (fun (s' : DMat K × Nat) j => do
          let jj ← rd mb.joints j
          let b ← jac.block s.2 s'.2 ji.dof jj.dof
          return (← s'.1.addBlock (← rd mb.jointPosInDof i) (← rd mb.jointPosInDof j) ji.dof jj.dof b, s'.2 + jj.dof)) (s.1, 0)
        return (res, s.2 + ji.dof)) (res, off) =
      (do return (← (mb.pathSegs path off).foldlM (fun res b1 => (mb.pathSegs J.path 0).foldlM (fun res b2 => do
        res.addBlock b1.startDof b2.startDof b1.length b2.length
          (← jac.block b1.startJac b2.startJac b1.length b2.length)) res) res, off + (path.map mb.dofAt).sum)) := by
    intro path
    induction path with
    | nil => intro _ off res; simp [MultiBody.pathSegs]
    | cons i l ih =>
      intro hp' off res
      have hi := hp' i (by simp)
      obtain ⟨j, hj, hd⟩ := wf.rd_joint hi
      rw [List.foldlM_cons, MultiBody.pathSegs, List.foldlM_cons]
      simp only [hj, Res.bind_ok, wf.rd_posDof' hi, hd]
      have h1 := inner i off hi J.path hp 0 res
      simp only [Res.pure_eq] at h1
      simp only [Res.pure_eq, h1]
      cases h2 : (mb.pathSegs J.path 0).foldlM (fun res b2 => do
        res.addBlock (mb.dofPosAt i) b2.startDof (mb.dofAt i) b2.length
          (← jac.block off b2.startJac (mb.dofAt i) b2.length)) res with
      | error e => rfl
      | ok m =>
        simp only [Res.bind_ok]
        have := ih (fun i hi => hp' i (by simp [hi])) (off + mb.dofAt i) m
        simp only [Res.pure_eq] at this
        rw [this, List.map_cons, List.sum_cons, ← Nat.add_assoc]
  unfold Jac.expandAdd expandAddBlocks
  rw [if_neg (by simp [hc, hrow])]
  beta_reduce
  rw [outer J.path hp 0 res]
  cases (mb.pathSegs J.path 0).foldlM (fun res b1 => (mb.pathSegs J.path 0).foldlM (fun res b2 => do
        res.addBlock b1.startDof b2.startDof b1.length b2.length
          (← jac.block b1.startJac b2.startJac b1.length b2.length)) res) res <;> rfl

theorem Jac.expandAdd_eq (wf : mb.WF) {J : Jac K} (hp : ∀ i ∈ J.path, i < mb.bodies.length) {jac res : DMat K}
    (hc : res.cols = mb.nrDof) (hrow : res.rows = mb.nrDof) (hjc : (J.path.map mb.dofAt).sum ≤ jac.cols)
    (hjr : (J.path.map mb.dofAt).sum ≤ jac.rows) :
    J.expandAdd mb jac res = .ok ⟨res.rows, res.cols, fun r c =>
      res.get r c + scat (mb.dofIdx J.path) (fun k => scat (mb.dofIdx J.path) (jac.get k) c) r⟩ := by
  rw [J.expandAdd_segs wf hp _ _ hc hrow, expandAddBlocks, expandOuter_eq jac _ (mb.pathSegs_packed _ _)
    (by rw [mb.pathSegs_idx, mb.dofIdx_length]; exact hjc) _ 0 res (mb.pathSegs_packed _ _)
    (fun b hb => (wf.pathSegs_le hp 0 b hb).trans hrow.ge) (fun b hb => (wf.pathSegs_le hp 0 b hb).trans hc.ge)
    (by rw [mb.pathSegs_idx, mb.dofIdx_length]; omega), mb.pathSegs_idx]
  simp only [Nat.zero_add]

/-! ### Entries -/

theorem MultiBody.WF.scat_notin (wf : mb.WF) {path : List Nat} (hp : ∀ i ∈ path, i < mb.bodies.length) {i a : Nat} (hi : i < mb.bodies.length)
    (ha : a < mb.dofAt i) (hn : i ∉ path) (f : Nat → K) : scat (mb.dofIdx path) f (mb.dofPosAt i + a) = 0 := by
  induction path generalizing f with
  | nil => exact scat_nil _ _
  | cons k l ih =>
    have e : mb.dofIdx (k :: l) = (List.range (mb.dofAt k)).map (mb.dofPosAt k + ·) ++ mb.dofIdx l := rfl
    rw [List.mem_cons, not_or] at hn
    rw [e, scat_append, scat_segment, ih (fun i hi => hp i (by simp [hi])) hn.2, add_zero, if_neg]
    rw [wf.in_segment (hp k (by simp)) hi ha]
    exact Ne.symm hn.1

theorem MultiBody.WF.scat_at (wf : mb.WF) {path : List Nat} (hp : ∀ i ∈ path, i < mb.bodies.length) (hnd : path.Nodup) {x i a : Nat}
    (hx : path[x]? = some i) (ha : a < mb.dofAt i) (f : Nat → K) :
    scat (mb.dofIdx path) f (mb.dofPosAt i + a) = f (((path.take x).map mb.dofAt).sum + a) := by
  induction path generalizing f x with
  | nil => simp at hx
  | cons k l ih =>
    have e : mb.dofIdx (k :: l) = (List.range (mb.dofAt k)).map (mb.dofPosAt k + ·) ++ mb.dofIdx l := rfl
    have hi : i < mb.bodies.length := hp i (List.mem_of_getElem? hx)
    rw [List.nodup_cons] at hnd
    rw [e, scat_append, scat_segment]
    cases x with
    | zero =>
      simp only [List.getElem?_cons_zero, Option.some.injEq] at hx
      subst hx
      rw [wf.scat_notin (fun i hi => hp i (by simp [hi])) hi ha hnd.1, if_pos (by omega), add_zero]
      simp
    | succ x =>
      rw [List.getElem?_cons_succ] at hx
      have hne : k ≠ i := by rintro rfl; exact hnd.1 (List.mem_of_getElem? hx)
      rw [if_neg (by rw [wf.in_segment (hp k (by simp)) hi ha]; exact hne), zero_add, ih (fun i hi => hp i (by simp [hi])) hnd.2 hx]
      simp only [List.length_map, List.length_range, List.take_succ_cons, List.map_cons, List.sum_cons]
      congr 1; omega

theorem SizedDof.pathVec_eq (wf : mb.WF) {v : List (List K)} (h : SizedDof mb v) {path : List Nat}
    (hp : ∀ i ∈ path, i < mb.bodies.length) : pathVec path v = (mb.dofIdx path).map (v.flatten.getD · 0) := by
  unfold pathVec MultiBody.dofIdx
  rw [List.map_flatMap]
  refine List.flatMap_congr fun i hi => ?_
  have hi := hp i hi
  rw [List.map_map]
  apply List.ext_getElem
  · rw [List.length_map, List.length_range]
    exact h.getD_length wf hi
  · intro a h1 h2
    rw [List.length_map, List.length_range] at h2
    simp only [List.getElem_map, Function.comp, List.getElem_range]
    rw [List.getD_eq_getElem?_getD, h.flatten_getD wf hi h2, Option.getD_some]
    unfold entry
    rw [List.getD_eq_getElem?_getD, List.getElem?_eq_getElem h1, Option.getD_some]

theorem mulVec_scat (wf : mb.WF) {v : List (List K)} (h : SizedDof mb v) {path : List Nat}
    (hp : ∀ i ∈ path, i < mb.bodies.length) (f : Nat → K) :
    ∑ c ∈ Finset.range mb.nrDof, scat (mb.dofIdx path) f c * v.flatten.getD c 0 =
      ∑ k ∈ Finset.range (path.map mb.dofAt).sum, f k * (pathVec path v).getD k 0 := by
  rw [sum_scat (wf.dofIdx_lt hp), mb.dofIdx_length]
  refine Finset.sum_congr rfl fun k hk => ?_
  rw [Finset.mem_range, ← mb.dofIdx_length] at hk
  rw [h.pathVec_eq wf hp]
  congr 1
  rw [List.getD_eq_getElem?_getD (l := List.map _ _), List.getElem?_map, List.getD_eq_getElem?_getD (l := mb.dofIdx path),
    List.getElem?_eq_getElem hk]
  rfl

theorem scat_mul (idx : List Nat) (m : Nat) (A B : Nat → Nat → K) (r c : Nat) :
    scat idx (fun k => scat idx (fun l => ∑ q ∈ Finset.range m, A q k * B q l) c) r =
      ∑ q ∈ Finset.range m, scat idx (A q) r * scat idx (B q) c := by
  have e1 : ∀ k, scat idx (fun l => ∑ q ∈ Finset.range m, A q k * B q l) c = ∑ q ∈ Finset.range m, A q k * scat idx (B q) c := by
    intro k
    unfold scat
    simp only [Finset.mul_sum]
    rw [Finset.sum_comm]
    refine Finset.sum_congr rfl fun l _ => ?_
    split
    · rfl
    · simp
  simp only [e1]
  unfold scat
  simp only [Finset.sum_mul]
  rw [Finset.sum_comm]
  refine Finset.sum_congr rfl fun k _ => ?_
  split
  · rfl
  · simp

theorem Jac.blocks_eq (wf : mb.WF) {J : Jac K} (hp : ∀ i ∈ J.path, i < mb.bodies.length) (hne : J.path ≠ []) :
    ∃ bs, J.compactPath mb = .ok bs ∧
      (∀ jac res : DMat K, mb.nrDof ≤ res.cols → jac.rows ≤ res.rows → (J.path.map mb.dofAt).sum ≤ jac.cols →
        addFullBlocks bs jac res = J.addFullJacobian mb jac res) ∧
      ∀ jac res : DMat K, res.cols = mb.nrDof → res.rows = mb.nrDof → (J.path.map mb.dofAt).sum ≤ jac.cols →
        (J.path.map mb.dofAt).sum ≤ jac.rows → expandAddBlocks bs jac res = J.expandAdd mb jac res := by
  obtain ⟨bs, e, hpk, hidx, hle⟩ := J.compactPath_eq wf hp hne
  have hlen : (blkIdx bs).length = (J.path.map mb.dofAt).sum := by rw [hidx, mb.dofIdx_length]
  refine ⟨bs, e, fun jac res h1 h2 h3 => ?_, fun jac res h1 h2 h3 h4 => ?_⟩
  · rw [J.addFullJacobian_eq wf hp h1 h2 h3, addFullBlocks_eq bs 0 jac res hpk (fun b hb => (hle b hb).trans h1) h2 (by omega), hidx]
    simp only [Nat.zero_add]
  · rw [J.expandAdd_eq wf hp h1 h2 h3 h4, expandAddBlocks, expandOuter_eq jac bs hpk (by omega) bs 0 res hpk
      (fun b hb => (hle b hb).trans h2.ge) (fun b hb => (hle b hb).trans h1.ge) (by omega), hidx]
    simp only [Nat.zero_add]

/-- Row `r` of a motion vector, as a linear map. -/
def MotionVec.rowHom (r : Nat) : MotionVec K →ₗ[K] K where
  toFun v := v.toList.getD r 0
  map_add' v w := by rcases r with _ | _ | _ | _ | _ | _ | r <;> simp [MotionVec.toList]
  map_smul' s v := by rcases r with _ | _ | _ | _ | _ | _ | r <;> simp [MotionVec.toList]

theorem ofCols_mulVecAt (S : List (MotionVec K)) (a : List K) (r : Nat) :
    (DMat.ofCols S).mulVecAt a r = (applyCols S a).toList.getD r 0 := by
  rw [applyCols_eq_sum S a S.length rfl]
  show _ = MotionVec.rowHom r _
  rw [map_sum]
  refine Finset.sum_congr rfl fun c _ => ?_
  rw [map_smul, smul_eq_mul, mul_comm]
  rfl

/-! ### Translating -/

theorem translateCols_eq (t : PTransform K) {jac res : List (MotionVec K)} (h : res.length = jac.length) :
    translateCols t jac res = .ok (jac.map t.mulMotion) := by
  unfold translateCols
  have step : ∀ k, k ≤ jac.length →
      (List.range k).foldlM (fun res i => do wr res i (t.mulMotion (← rd jac i))) res = .ok ((jac.take k).map t.mulMotion ++ res.drop k) := by
    intro k
    induction k with
    | zero => intro _; simp
    | succ k ih =>
      intro hk
      rw [List.range_succ, List.foldlM_append, ih (by omega), Res.bind_ok]
      have hl : ((jac.take k).map t.mulMotion).length = k := by rw [List.length_map, List.length_take]; omega
      simp only [List.foldlM_cons, List.foldlM_nil, rd_ok hk, Res.bind_ok]
      rw [wr_ok (by rw [List.length_append, hl, List.length_drop]; omega)]
      simp only [Res.bind_ok, Res.pure_eq]
      rw [List.set_append_right _ _ (by omega), hl, Nat.sub_self, List.drop_eq_getElem_cons (by omega : k < res.length), List.set_cons_zero,
        List.take_add_one, List.getElem?_eq_getElem hk]
      simp only [Option.toList_some, List.map_append, List.map_cons, List.map_nil, List.append_assoc, List.singleton_append]
  rw [step _ le_rfl, List.take_length, List.drop_eq_nil_of_le (by omega), List.append_nil]

theorem jacCols_map {q : List (List K)} (hr : mb.Rigid) (hq : ValidQ mb q) (t X : PTransform K) (hX : IsRigid X) (path : List Nat)
    (sign : List K) : (mb.jacCols q X path sign).map t.mulMotion = mb.jacCols q (t * X) path sign := by
  unfold MultiBody.jacCols MultiBody.pathCols
  rw [List.map_flatMap]
  refine List.flatMap_congr fun x _ => ?_
  rw [List.map_map]
  refine List.map_congr_left fun a _ => ?_
  have := mb.posAt_rigid hr hq (path.getD x 0)
  simp only [Function.comp]
  rw [← PTransform.mul_mulMotion _ _ _ (hX.mul this.inv), PTransform.mul_assoc']

end RBDyn
