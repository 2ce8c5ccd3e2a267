import Verif.Lemmas.Mass

/-! The code of `ForwardDynamics` computes the mass matrix and the bias force. -/

namespace RBDyn
variable {K : Type} [Scalar K] {mb : MultiBody K}

theorem setCols_eq {α : Type} (n : Nat) (A : List α) (g : Nat → Res α) (h : Nat → α) (hA : A.length = n)
    (hg : ∀ c, c < n → g c = .ok (h c)) : setCols n A g = .ok ((List.range n).map h) := by
  unfold setCols
  refine (foldlM_range_inv (fun A c => do wr A c (← g c)) (fun k A => Filled A (fun i => some (h i)) k n) n A (.zero hA) ?_).elim ?_
  · intro i s hi hs
    have b : i < s.length := by rw [hs.1]; exact hi
    simp only [hg i hi, Res.bind_ok, wr_ok b, Except.ok.injEq, exists_eq_left']
    exact hs.set hi rfl
  · rintro s ⟨e, hs⟩
    rw [e, hs.range_map]

theorem FD.mk'_fits (wf : mb.WF) (junk : FD K) : ∃ d, FD.mk' junk mb = .ok d ∧ d.Fits mb := by
  unfold FD.mk'
  set d0 : FD K := FD.alloc junk mb with hd0
  have hn : mb.nrJoints = mb.bodies.length := wf.njoints
  have hj : mb.joints.length = mb.bodies.length := wf.njoints
  refine (foldlM_range_inv (fun (s : FD K × Nat) i => do
    let j ← rd mb.joints i
    let F ← wr s.1.F i ((List.range j.dof).map fun c => (junk.F.getD i []).getD c 0)
    let dofPos ← wr s.1.dofPos i s.2
    pure ({ s.1 with F, dofPos }, s.2 + j.dof)) (fun k s =>
      s.2 = mb.dofPosAt k ∧ Filled s.1.dofPos (fun i => some (mb.dofPosAt i)) k mb.bodies.length ∧
      s.1.F.length = mb.bodies.length ∧ (∀ i, i < k → (s.1.F[i]?).map List.length = some (mb.dofAt i)) ∧
      s.1 = { d0 with F := s.1.F, dofPos := s.1.dofPos }) mb.nrJoints (d0, 0) ?_ ?_).elim ?_
  · refine ⟨by simp [MultiBody.dofPosAt], .zero (by simp [hd0, FD.alloc, hn]), by simp [hd0, FD.alloc, hn], fun i hi => absurd hi (Nat.not_lt_zero _), rfl⟩
  · rintro i ⟨d, p⟩ hi ⟨h1, h2, h3, h4, h5⟩
    dsimp only at h1 h2 h3 h4 h5
    have hi' : i < mb.bodies.length := hn ▸ hi
    obtain ⟨j, hj', hdof⟩ := wf.rd_joint hi'
    have b1 : i < d.F.length := by omega
    have b2 : i < d.dofPos.length := by rw [h2.1]; exact hi'
    simp only [hj', Res.bind_ok, wr_ok b1, wr_ok b2, Res.pure_eq, Except.ok.injEq, exists_eq_left']
    refine ⟨by rw [mb.dofPosAt_succ (by omega), h1, hdof], h2.set hi' (by rw [h1]), by simpa using h3, fun m hm => ?_, by rw [h5]⟩
    rw [List.getElem?_set]
    split
    · rename_i e; subst e; simp [hdof]
    · exact h4 m (by omega)
  · rintro ⟨d, p⟩ ⟨e, -, h2, h3, h4, h5⟩
    dsimp only at h2 h3 h4 h5
    rw [hn] at h2 h4
    refine ⟨d, by rw [e]; rfl, ?_⟩
    have hF : d.F.map List.length = mb.joints.map (·.dof) := by
      apply List.ext_getElem?
      intro i
      by_cases hi : i < mb.bodies.length
      · have hi' : i < mb.joints.length := by omega
        rw [List.getElem?_map, h4 i hi]
        simp [MultiBody.dofAt, hi']
      · rw [List.getElem?_eq_none (by simp; omega), List.getElem?_eq_none (by simp; omega)]
    refine ⟨by rw [h5]; rfl, by rw [h5]; rfl, by rw [h5]; simp [hd0, FD.alloc], by rw [h5]; simp [hd0, FD.alloc, MultiBody.nrBodies], hF,
      by rw [h5]; simp [hd0, FD.alloc, MultiBody.nrBodies], by rw [h5]; simp [hd0, FD.alloc, MultiBody.nrBodies], by rw [h5]; simp [hd0, FD.alloc], h2.range_map⟩

/-- The blocks of the matrix for which `done` holds contain the mass matrix, the others are zero. -/
def HSpec (mb : MultiBody K) (q : List (List K)) (done : Nat → Nat → Prop) (H : DMat K) : Prop :=
  H.rows = mb.nrDof ∧ H.cols = mb.nrDof ∧ ∀ i a j b, i < mb.bodies.length → j < mb.bodies.length → a < mb.dofAt i → b < mb.dofAt j →
    (done i j → H.get (mb.dofPosAt i + a) (mb.dofPosAt j + b) = mb.massAt q i a j b) ∧
    (¬ done i j → H.get (mb.dofPosAt i + a) (mb.dofPosAt j + b) = 0)

/-- Writing the block of joints `i`, `j`. -/
theorem HSpec.set (wf : mb.WF) {q : List (List K)} {done done' : Nat → Nat → Prop} {H : DMat K} (h : HSpec mb q done H) {i j : Nat}
    (hi : i < mb.bodies.length) (hj : j < mb.bodies.length) {B : DMat K} (hr : B.rows = mb.dofAt i) (hc : B.cols = mb.dofAt j)
    (hB : ∀ a b, a < mb.dofAt i → b < mb.dofAt j → B.get a b = mb.massAt q i a j b)
    (hd : ∀ i' j', done' i' j' ↔ done i' j' ∨ (i' = i ∧ j' = j)) :
    ∃ H', H.setBlock (mb.dofPosAt i) (mb.dofPosAt j) (mb.dofAt i) (mb.dofAt j) B = .ok H' ∧ HSpec mb q done' H' := by
  obtain ⟨h1, h2, h3⟩ := h
  have b1 := wf.dofPosAt_add_le hi
  have b2 := wf.dofPosAt_add_le hj
  unfold DMat.setBlock
  rw [if_pos ⟨by omega, by omega, hr, hc⟩]
  refine ⟨_, rfl, h1, h2, ?_⟩
  intro i' a j' b hi' hj' ha hb
  have s1 := wf.in_segment hi hi' ha
  have s2 := wf.in_segment hj hj' hb
  have e : (mb.dofPosAt i ≤ mb.dofPosAt i' + a ∧ mb.dofPosAt i' + a < mb.dofPosAt i + mb.dofAt i ∧
      mb.dofPosAt j ≤ mb.dofPosAt j' + b ∧ mb.dofPosAt j' + b < mb.dofPosAt j + mb.dofAt j) ↔ i' = i ∧ j' = j := by
    rw [← and_assoc, s1, s2]
    constructor <;> rintro ⟨rfl, rfl⟩ <;> exact ⟨rfl, rfl⟩
  simp only [e, hd]
  by_cases hij : i' = i ∧ j' = j
  · obtain ⟨rfl, rfl⟩ := hij
    simp only [and_self, if_true, or_true, true_implies, not_true_eq_false, false_implies, and_true]
    rw [Nat.add_sub_cancel_left, Nat.add_sub_cancel_left]
    exact hB a b ha hb
  · simp only [hij, if_false, or_false]
    exact h3 i' a j' b hi' hj' ha hb

theorem HSpec.mono {q : List (List K)} {done done' : Nat → Nat → Prop} {H : DMat K} (h : HSpec mb q done H)
    (hd : ∀ i j, i < mb.bodies.length → j < mb.bodies.length → 0 < mb.dofAt i → 0 < mb.dofAt j → (done' i j ↔ done i j)) :
    HSpec mb q done' H := by
  refine ⟨h.1, h.2.1, fun i a j b hi hj ha hb => ?_⟩
  rw [hd i j hi hj (by omega) (by omega)]
  exact h.2.2 i a j b hi hj ha hb

section hup
variable {q : List (List K)}

theorem getD_range_map {α : Type} (n : Nat) (f : Nat → α) (x : α) {i : Nat} (hi : i < n) : ((List.range n).map f).getD i x = f i := by
  simp [List.getD_eq_getElem?_getD, hi]

/-- The climbing loop of `computeH`. -/
theorem hUp_eq (wf : mb.WF) (hr : mb.Rigid) {mbc : MBC K} (hq : ValidQ mb q) (i : Nat) (hi : i < mb.bodies.length)
    (hX : Filled mbc.parentToSon (fun i => some (mb.ptsAt q i)) mb.bodies.length mb.bodies.length)
    (hS : Filled mbc.motionSubspace (fun i => some (mb.SAt i)) mb.bodies.length mb.bodies.length) :
    ∀ (fuel j : Nat) (d : FD K) (done done' : Nat → Nat → Prop), j < fuel → j ∈ pathUp mb.par i →
      HSpec mb q done d.H → d.dofPos = (List.range mb.bodies.length).map mb.dofPosAt →
      d.F[i]? = some ((List.range (mb.dofAt i)).map (mb.FAt q j i)) →
      (∀ i' j', done' i' j' ↔ done i' j' ∨ (i' = i ∧ j' ∈ pathUp mb.par j ∧ j' ≠ j) ∨ (j' = i ∧ i' ∈ pathUp mb.par j ∧ i' ≠ j)) →
      ∃ d', hUp mb mbc i fuel j d = .ok d' ∧ HSpec mb q done' d'.H ∧ d'.F.map List.length = d.F.map List.length ∧
        d' = { d with H := d'.H, F := d'.F } := by
  intro fuel
  induction fuel with
  | zero => intro j _ _ _ h; omega
  | succ fuel ih =>
    intro j d done done' hjf hji hH hp hF hd
    have hjn : j < mb.bodies.length := by have := le_of_mem_pathUp hji; omega
    obtain ⟨p, hpr, ⟨rfl, hpar⟩ | ⟨k, rfl, hpar, hk⟩⟩ := wf.pred_cases hjn
    · refine ⟨d, ?_, ?_, rfl, rfl⟩
      · simp only [hUp, hpr, Res.bind_ok, ne_eq, not_true_eq_false, if_false, Res.pure_eq]
      · refine hH.mono fun i' j' _ _ _ _ => ?_
        rw [hd, mem_pathUp_none hpar, mem_pathUp_none hpar]
        constructor
        · rintro (h | ⟨-, h1, h2⟩ | ⟨-, h1, h2⟩)
          · exact h
          · exact absurd h1 h2
          · exact absurd h1 h2
        · exact .inl
    · have hne : ((k : Int) ≠ -1) := by omega
      have hnn : ¬ ((k : Int) < 0) := by omega
      have hkn : k < mb.bodies.length := by omega
      obtain ⟨ji, hji', hdi⟩ := wf.rd_joint hi
      obtain ⟨jk, hjk', hdk⟩ := wf.rd_joint hkn
      have hFl : i < d.F.length := by
        rcases List.getElem?_eq_some_iff.1 hF with ⟨h, -⟩; exact h
      have hcols : setCols (mb.dofAt i) ((List.range (mb.dofAt i)).map (mb.FAt q j i))
          (fun c => do return (mb.ptsAt q j).transMul (← rd ((List.range (mb.dofAt i)).map (mb.FAt q j i)) c)) =
          .ok ((List.range (mb.dofAt i)).map (mb.FAt q k i)) := by
        refine setCols_eq _ _ _ _ (by simp) fun c hc => ?_
        have b : c < ((List.range (mb.dofAt i)).map (mb.FAt q j i)).length := by simpa using hc
        simp only [rd_ok b, Res.bind_ok, Res.pure_eq, List.getElem_map, List.getElem_range, wf.FAt_parent hr hq hpar]
      simp only [Res.pure_eq] at hcols
      have hki : k ∈ pathUp mb.par i := pathUp_trans hji (by rw [mem_pathUp_some hpar hk]; exact .inr (self_mem_pathUp _ _))
      have hdp : ∀ m, m < mb.bodies.length → rd d.dofPos m = .ok (mb.dofPosAt m) := fun m hm => by
        rw [hp]; exact rd_of_getElem? (range_map_getElem? hm)
      have hS' : rd mbc.motionSubspace k = .ok (mb.SAt k) := hS.rd hkn
      set F' := d.F.set i ((List.range (mb.dofAt i)).map (mb.FAt q k i)) with hF'
      have hFlen : F'.map List.length = d.F.map List.length := by
        rw [hF', List.map_set]
        apply List.ext_getElem?
        intro m
        rw [List.getElem?_set]
        split
        · rename_i e; subst e
          rw [if_pos (by simpa using hFl), List.getElem?_map, hF]; simp
        · rfl
      have hFi : F'[i]? = some ((List.range (mb.dofAt i)).map (mb.FAt q k i)) := by
        rw [hF', List.getElem?_set, if_pos rfl, if_pos hFl]
      have hmem : ∀ m, (m ∈ pathUp mb.par j ∧ m ≠ j) ↔ m ∈ pathUp mb.par k := by
        intro m
        rw [mem_pathUp_some hpar hk]
        constructor
        · rintro ⟨h1 | h1, h2⟩
          · exact absurd h1 h2
          · exact h1
        · intro h; exact ⟨.inr h, by have := le_of_mem_pathUp h; omega⟩
      have hd' : ∀ i' j', done' i' j' ↔ ((done i' j' ∨ (i' = i ∧ j' = k)) ∨ (i' = k ∧ j' = i)) ∨
          (i' = i ∧ j' ∈ pathUp mb.par k ∧ j' ≠ k) ∨ (j' = i ∧ i' ∈ pathUp mb.par k ∧ i' ≠ k) := by
        intro i' j'
        rw [hd]
        simp only [hmem]
        have hkk := self_mem_pathUp mb.par k
        by_cases h1 : j' = k
        · subst h1; by_cases h2 : i' = j'
          · subst h2; tauto
          · tauto
        · by_cases h2 : i' = k
          · subst h2; tauto
          · tauto
      by_cases hz : mb.dofAt k = 0
      · obtain ⟨d', r1, r2, r3, r4⟩ := ih k { d with F := F' } (fun i' j' => (done i' j' ∨ (i' = i ∧ j' = k)) ∨ (i' = k ∧ j' = i)) done'
          (by omega) hki (hH.mono fun i' j' _ _ h1 h2 => by
            constructor
            · rintro ((h | ⟨-, rfl⟩) | ⟨rfl, -⟩)
              · exact h
              · omega
              · omega
            · exact fun h => .inl (.inl h)) hp hFi hd'
        refine ⟨d', ?_, r2, by rw [r3, hFlen], by rw [r4]⟩
        simp only [hUp, hpr, Res.bind_ok, ne_eq, hne, not_false_eq_true, if_true, hX.rd hjn, hji', hdi, rd_of_getElem? hF, Res.pure_eq,
          hcols, wr_ok hFl, hnn, if_false, Int.toNat_natCast, hjk', hdk, hz, not_true_eq_false, ← hF']
        exact r1
      · have hg : (gram (mb.SAt k) ((List.range (mb.dofAt i)).map (mb.FAt q k i))).tr.rows = mb.dofAt i := by
          simp [gram, DMat.tr]
        obtain ⟨H1, e1, hH1⟩ := hH.set (done' := fun i' j' => done i' j' ∨ (i' = i ∧ j' = k)) wf hi hkn
          (B := (gram (mb.SAt k) ((List.range (mb.dofAt i)).map (mb.FAt q k i))).tr) hg
          (by simp [gram, DMat.tr, wf.SAt_length hkn])
          (by intro a b ha hb
              simp only [gram, DMat.tr]
              rw [getD_range_map _ _ _ ha, mb.massAt_ancestor hr hq hki])
          (fun _ _ => Iff.rfl)
        have b1 := wf.dofPosAt_add_le hi
        have b2 := wf.dofPosAt_add_le hkn
        have eb : H1.block (mb.dofPosAt i) (mb.dofPosAt k) (mb.dofAt i) (mb.dofAt k) =
            .ok ⟨mb.dofAt i, mb.dofAt k, fun a b => H1.get (mb.dofPosAt i + a) (mb.dofPosAt k + b)⟩ := by
          unfold DMat.block
          rw [if_pos ⟨by rw [hH1.1]; exact b1, by rw [hH1.2.1]; exact b2⟩]
        obtain ⟨H2, e2, hH2⟩ := hH1.set (done' := fun i' j' => (done i' j' ∨ (i' = i ∧ j' = k)) ∨ (i' = k ∧ j' = i)) wf hkn hi
          (B := (DMat.tr ⟨mb.dofAt i, mb.dofAt k, fun a b => H1.get (mb.dofPosAt i + a) (mb.dofPosAt k + b)⟩)) rfl rfl
          (by intro a b ha hb
              simp only [DMat.tr]
              rw [(hH1.2.2 i b k a hi hkn hb ha).1 (.inr ⟨rfl, rfl⟩), mb.massAt_comm])
          (fun _ _ => Iff.rfl)
        obtain ⟨d', r1, r2, r3, r4⟩ := ih k { d with F := F', H := H2 } _ done' (by omega) hki hH2 hp hFi hd'
        refine ⟨d', ?_, r2, by rw [r3, hFlen], by rw [r4]⟩
        simp only [hUp, hpr, Res.bind_ok, ne_eq, hne, not_false_eq_true, if_true, hX.rd hjn, hji', hdi, rd_of_getElem? hF, Res.pure_eq,
          hcols, wr_ok hFl, hnn, if_false, Int.toNat_natCast, hjk', hdk, hz, hdp i hi, hdp k hkn, hS', e1, eb, e2, ← hF']
        exact r1

end hup

theorem done_step (par : Nat → Option Nat) (i i' j' : Nat) :
    ((i ≤ i' ∧ j' ∈ pathUp par i') ∨ (i ≤ j' ∧ i' ∈ pathUp par j')) ↔
      (((i + 1 ≤ i' ∧ j' ∈ pathUp par i') ∨ (i + 1 ≤ j' ∧ i' ∈ pathUp par j')) ∨ (i' = i ∧ j' = i)) ∨
        (i' = i ∧ j' ∈ pathUp par i ∧ j' ≠ i) ∨ (j' = i ∧ i' ∈ pathUp par i ∧ i' ≠ i) := by
  have hs := self_mem_pathUp par i
  constructor
  · rintro (⟨h1, h2⟩ | ⟨h1, h2⟩)
    · rcases Nat.eq_or_lt_of_le h1 with rfl | h1
      · by_cases h : j' = i
        · exact .inl (.inr ⟨rfl, h⟩)
        · exact .inr (.inl ⟨rfl, h2, h⟩)
      · exact .inl (.inl (.inl ⟨h1, h2⟩))
    · rcases Nat.eq_or_lt_of_le h1 with rfl | h1
      · by_cases h : i' = i
        · exact .inl (.inr ⟨h, rfl⟩)
        · exact .inr (.inr ⟨rfl, h2, h⟩)
      · exact .inl (.inl (.inr ⟨h1, h2⟩))
  · rintro (((⟨h1, h2⟩ | ⟨h1, h2⟩) | ⟨rfl, rfl⟩) | ⟨rfl, h, -⟩ | ⟨rfl, h, -⟩)
    · exact .inl ⟨by omega, h2⟩
    · exact .inr ⟨by omega, h2⟩
    · exact .inl ⟨le_rfl, hs⟩
    · exact .inl ⟨le_rfl, h⟩
    · exact .inr ⟨le_rfl, h⟩

/-- Invariant of the second loop of `computeH`: the bodies from `k` on are done. -/
def HInv (mb : MultiBody K) (q : List (List K)) (d : FD K) (k : Nat) (s : FD K) : Prop :=
  HSpec mb q (fun i j => (k ≤ i ∧ j ∈ pathUp mb.par i) ∨ (k ≤ j ∧ i ∈ pathUp mb.par j)) s.H ∧
  Accum mb.par (fun c => (mb.ptsAt q c).transMulI) mb.inertiaAt (mb.IcAt q) s.Ist k mb.bodies.length ∧
  s.F.map List.length = mb.joints.map (·.dof) ∧ s = { d with H := s.H, Ist := s.Ist, F := s.F }

theorem hStep_inv (wf : mb.WF) (hr : mb.Rigid) {mbc : MBC K} {q : List (List K)} (hq : ValidQ mb q) {d : FD K} (hd : d.Fits mb) {n : Nat}
    (hn : n = mb.bodies.length) (hX : Filled mbc.parentToSon (fun i => some (mb.ptsAt q i)) n n)
    (hS : Filled mbc.motionSubspace (fun i => some (mb.SAt i)) n n) (i : Nat) (s : FD K) (hi : i < n)
    (h : HInv mb q d (i + 1) s) : ∃ s', hStep mb mbc s i = .ok s' ∧ HInv mb q d i s' := by
  subst hn
  obtain ⟨g1, g2, g3, g4⟩ := h
  have hsub := wf.IcAt_rec hr hq
  have hi' : i < mb.bodies.length := hi
  have hIi : rd s.Ist i = .ok (mb.IcAt q i) := rd_of_getElem? (g2.get wf.par_lt hsub hi)
  obtain ⟨j, hj, hdof⟩ := wf.rd_joint hi
  have hFl : i < s.F.length := by
    have := congrArg List.length g3
    simp only [List.length_map] at this
    rw [this, wf.njoints]; exact hi
  have hFi : (s.F[i]).length = mb.dofAt i := by
    have hjl : i < mb.joints.length := by rw [wf.njoints]; exact hi
    have : (s.F.map List.length)[i]? = (mb.joints.map (·.dof))[i]? := by rw [g3]
    simp only [List.getElem?_map, List.getElem?_eq_getElem hFl, List.getElem?_eq_getElem hjl, Option.map_some] at this
    rw [Option.some.inj this]
    simp [MultiBody.dofAt, hjl]
  have hSl := wf.SAt_length hi
  have hcols : setCols (mb.dofAt i) (s.F[i]) (fun c => do return (mb.IcAt q i).mulMotion (← rd (mb.SAt i) c)) =
      .ok ((List.range (mb.dofAt i)).map (mb.FAt q i i)) := by
    refine setCols_eq _ _ _ _ hFi fun c hc => ?_
    have b : c < (mb.SAt i).length := by omega
    simp only [rd_ok b, Res.bind_ok, Res.pure_eq, mb.FAt_self hr hq, List.getD_eq_getElem?_getD, List.getElem?_eq_getElem b, Option.getD_some]
  simp only [Res.pure_eq] at hcols
  have hp : rd s.dofPos i = .ok (mb.dofPosAt i) := by
    rw [g4]
    show rd d.dofPos i = _
    rw [hd.dofPos]; exact rd_of_getElem? (range_map_getElem? hi)
  obtain ⟨H1, e1, hH1⟩ := g1.set (done' := fun i' j' => ((i + 1 ≤ i' ∧ j' ∈ pathUp mb.par i') ∨ (i + 1 ≤ j' ∧ i' ∈ pathUp mb.par j')) ∨ (i' = i ∧ j' = i))
    wf hi hi (B := gram (mb.SAt i) ((List.range (mb.dofAt i)).map (mb.FAt q i i))) (by simp [gram, hSl]) (by simp [gram])
    (by intro a b ha hb
        simp only [gram]
        rw [getD_range_map _ _ _ hb, mb.massAt_comm, mb.massAt_ancestor hr hq (self_mem_pathUp _ _)])
    (fun _ _ => Iff.rfl)
  have hdone := done_step mb.par i
  set F' := s.F.set i ((List.range (mb.dofAt i)).map (mb.FAt q i i)) with hF'
  have hF'l : F'.map List.length = mb.joints.map (·.dof) := by
    rw [← g3, hF', List.map_set]
    apply List.ext_getElem?
    intro m
    rw [List.getElem?_set]
    split
    · rename_i e; subst e
      rw [if_pos (by simpa using hFl), List.getElem?_map, List.getElem?_eq_getElem hFl]; simp [hFi]
    · rfl
  have hF'i : F'[i]? = some ((List.range (mb.dofAt i)).map (mb.FAt q i i)) := by
    rw [hF', List.getElem?_set, if_pos rfl, if_pos hFl]
  have hS' : rd mbc.motionSubspace i = .ok (mb.SAt i) := hS.rd hi
  have hsp : s.dofPos = (List.range mb.bodies.length).map mb.dofPosAt := by rw [g4]; exact hd.dofPos
  obtain ⟨p, hpr, ⟨rfl, hpar⟩ | ⟨k, rfl, hpar, hk⟩⟩ := wf.pred_cases hi
  · obtain ⟨d', r1, r2, r3, r4⟩ := hUp_eq wf hr hq i hi hX hS (mb.bodies.length + 1) i { s with F := F', H := H1 } _ _ (by omega) (self_mem_pathUp _ _) hH1
      hsp hF'i hdone
    refine ⟨d', ?_, r2, ?_, by rw [r3]; exact hF'l, ?_⟩
    · simp only [hStep, hpr, hIi, Res.bind_ok, ne_eq, not_true_eq_false, if_false, Res.pure_eq, hj, hdof, hS', rd_ok hFl, hcols, wr_ok hFl, hp, e1, ← hF']
      exact r1
    · have : d'.Ist = s.Ist := by rw [r4]
      rw [this]; exact g2.skip hpar
    · rw [r4, g4]
  · have hne : ((k : Int) ≠ -1) := by omega
    have bk : k < s.Ist.length := by rw [g2.1]; omega
    have hki : i ≠ k := by omega
    obtain ⟨x, hx⟩ : ∃ x, s.Ist[k]? = some x := ⟨_, List.getElem?_eq_getElem bk⟩
    have g2' := g2.step hi hpar (by omega) hx
    have hI2 : rd (s.Ist.set k (x + (mb.ptsAt q i).transMulI (mb.IcAt q i))) i = .ok (mb.IcAt q i) := by
      rw [rd_eq_ok_iff, List.getElem?_set_ne (Ne.symm hki)]
      exact g2.get wf.par_lt hsub hi
    obtain ⟨d', r1, r2, r3, r4⟩ := hUp_eq wf hr hq i hi hX hS (mb.bodies.length + 1) i
      { s with F := F', H := H1, Ist := s.Ist.set k (x + (mb.ptsAt q i).transMulI (mb.IcAt q i)) } _ _ (by omega)
      (self_mem_pathUp _ _) hH1 hsp hF'i hdone
    refine ⟨d', ?_, r2, ?_, by rw [r3]; exact hF'l, ?_⟩
    · simp only [hStep, hpr, hIi, Res.bind_ok, ne_eq, hne, not_false_eq_true, if_true, hX.rd hi, rdI_ofNat, wrI_ofNat, rd_of_getElem? hx, wr_ok bk, hI2,
        Res.pure_eq, hj, hdof, hS', rd_ok hFl, hcols, wr_ok hFl, hp, e1, ← hF']
      exact r1
    · have : d'.Ist = s.Ist.set k (x + (mb.ptsAt q i).transMulI (mb.IcAt q i)) := by rw [r4]
      rw [this]; exact g2'
    · rw [r4, g4]

/-- `computeH` fills the matrix with the mass matrix. -/
theorem computeH_eq (wf : mb.WF) (hr : mb.Rigid) {mbc : MBC K} (hq : ValidQ mb mbc.q) (hv : mbc.PosReady mb) {d : FD K}
    (hd : d.Fits mb) :
    ∃ d', d.computeH mb mbc = .ok d' ∧ HSpec mb mbc.q (fun _ _ => True) d'.H ∧ d'.Fits mb ∧
      d' = { d with H := d'.H, Ist := d'.Ist, F := d'.F } := by
  set n := mb.bodies.length with hn
  set q := mbc.q with hqd
  have hX : Filled mbc.parentToSon (fun i => some (mb.ptsAt q i)) n n := by rw [hv.parentToSon]; exact .of_range_map
  have hS : Filled mbc.motionSubspace (fun i => some (mb.SAt i)) n n := by rw [hv.motionSubspace]; exact .of_range_map
  unfold FD.computeH
  rw [← hn]
  refine (foldlM_range_inv (fun (d : FD K) i => do
    let b ← rd mb.bodies i
    let Ist ← wr d.Ist i b.inertia
    pure { d with Ist }) (fun k s => Filled s.Ist (fun i => some (mb.inertiaAt i)) k n ∧ s = { d with H := d.H.setZero, Ist := s.Ist })
    n { d with H := d.H.setZero } ⟨.zero hd.Ist, rfl⟩ ?_).elim ?_
  · rintro i s hi ⟨h1, h2⟩
    obtain ⟨b, hb, hI⟩ := mb.rd_body hi
    have b1 : i < s.Ist.length := by rw [h1.1]; exact hi
    simp only [hb, Res.bind_ok, wr_ok b1, Res.pure_eq, Except.ok.injEq, exists_eq_left', hI]
    exact ⟨h1.set hi rfl, by rw [h2]⟩
  rintro d1 ⟨e, h1, h2⟩
  simp only [e, Res.bind_ok]
  have hsub := wf.IcAt_rec hr hq
  refine (foldlM_range_reverse_inv (hStep mb mbc) (HInv mb q d) n d1 ?_ ?_).elim ?_
  · refine ⟨?_, .start h1, by rw [h2]; exact hd.F, by rw [h2]⟩
    have : d1.H = d.H.setZero := by rw [h2]
    rw [this]
    refine ⟨hd.Hrows, hd.Hcols, fun i a j b hi hj ha hb => ⟨fun h => ?_, fun _ => rfl⟩⟩
    omega
  · exact hStep_inv wf hr hq hd hn hX hS
  · rintro s ⟨e, g1, g2, g3, g4⟩
    refine ⟨s, e, ?_, ?_, g4⟩
    · refine ⟨g1.1, g1.2.1, fun i a j b hi hj ha hb => ⟨fun _ => ?_, fun h => absurd trivial h⟩⟩
      by_cases h : j ∈ pathUp mb.par i ∨ i ∈ pathUp mb.par j
      · exact (g1.2.2 i a j b hi hj ha hb).1 (by rcases h with h | h <;> simp [h])
      · rw [not_or] at h
        rw [(g1.2.2 i a j b hi hj ha hb).2 (by simp [h.1, h.2]), mb.massAt_unrelated h.2 h.1]
    · exact ⟨g1.1, g1.2.1, by rw [g4]; exact hd.C, g2.1, g3, by rw [g4]; exact hd.acc, by rw [g4]; exact hd.f, by rw [g4]; exact hd.tmpFd,
        by rw [g4]; exact hd.dofPos⟩

/-- The state after the first loop of `computeC`. -/
theorem cLoop_eq (wf : mb.WF) (hr : mb.Rigid) {mbc : MBC K} (sz : mbc.force.length = mb.bodies.length) (hq : ValidQ mb mbc.q)
    (hv : mbc.VelReady mb) {d : FD K} (hd : d.Fits mb) :
    (List.range mb.bodies.length).foldlM (cStep mb mbc) d = .ok
      { d with
        f := (List.range mb.bodies.length).map (mb.netForceAt mbc.q mbc.alpha [] ⟨0, mbc.gravity⟩ mbc.forceAt)
        acc := (List.range mb.bodies.length).map (mb.accAt mbc.q mbc.alpha [] ⟨0, mbc.gravity⟩) } := by
  set n := mb.bodies.length with hn
  set a0 : MotionVec K := ⟨0, mbc.gravity⟩ with ha0
  have hX : Filled mbc.parentToSon (fun i => some (mb.ptsAt mbc.q i)) n n := by rw [hv.parentToSon]; exact .of_range_map
  have hW : Filled mbc.bodyPosW (fun i => some (mb.posAt mbc.q i)) n n := by rw [hv.bodyPosW]; exact .of_range_map
  have hb : Filled mbc.bodyVelB (fun i => some (mb.velAt mbc.q mbc.alpha i)) n n := by rw [hv.bodyVelB]; exact .of_range_map
  have hj : Filled mbc.jointVelocity (fun i => some (mb.jointMotion mbc.alpha i)) n n := by
    rw [hv.jointVelocity]; exact .of_range_map
  have h0 : ∀ i, mb.jointMotion [] i = 0 := fun i => by simp [MultiBody.jointMotion, applyCols]
  refine (foldlM_range_inv (cStep mb mbc) (fun k s =>
    Filled s.f (fun i => some (mb.netForceAt mbc.q mbc.alpha [] a0 mbc.forceAt i)) k n ∧
    Filled s.acc (fun i => some (mb.accAt mbc.q mbc.alpha [] a0 i)) k n ∧
    s = { d with acc := s.acc, f := s.f }) n d ⟨.zero hd.f, .zero hd.acc, rfl⟩ ?_).elim ?_
  · rintro i s hi ⟨f1, f2, e⟩
    have hfs : rd mbc.force i = .ok (mbc.forceAt i) := by
      have : i < mbc.force.length := by rw [sz]; exact hi
      rw [rd_ok this]; simp [MBC.forceAt, this]
    obtain ⟨b, hbd, hI⟩ := mb.rd_body hi
    have b1 : i < s.acc.length := by rw [f2.1]; exact hi
    have b2 : i < s.f.length := by rw [f1.1]; exact hi
    obtain ⟨p, hp, ⟨rfl, hpar⟩ | ⟨k, rfl, hpar, hk⟩⟩ := wf.pred_cases hi
    · have ea := wf.accAt_none hr hq mbc.alpha [] a0 hi hpar
      rw [h0, zero_add] at ea
      simp only [cStep, hX.rd hi, hj.rd hi, hb.rd hi, hp, Res.bind_ok, ne_eq, not_true_eq_false, if_false, ← ha0, Res.pure_eq,
        wr_ok b1, hbd, hW.rd hi, hfs, wr_ok b2, ← ea, hI, Except.ok.injEq, exists_eq_left']
      exact ⟨f1.set hi rfl, f2.set hi rfl, by rw [e]⟩
    · have ea := wf.accAt_some hr hq mbc.alpha [] a0 hi hpar
      rw [h0, zero_add] at ea
      have hne : ((k : Int) ≠ -1) := by omega
      simp only [cStep, hX.rd hi, hj.rd hi, hb.rd hi, hp, Res.bind_ok, ne_eq, hne, not_false_eq_true, if_true, rdI_ofNat, f2.rd hk, Res.pure_eq,
        wr_ok b1, hbd, hW.rd hi, hfs, wr_ok b2, ← ea, hI, Except.ok.injEq, exists_eq_left']
      exact ⟨f1.set hi rfl, f2.set hi rfl, by rw [e]⟩
  · rintro s ⟨h, f1, f2, e⟩
    rw [h, e]
    rw [← f2.range_map, ← f1.range_map]

/-- `computeC` fills the vector with the projections of the wrenches at zero joint acceleration. -/
theorem computeC_eq (wf : mb.WF) (hr : mb.Rigid) {mbc : MBC K} (sz : mbc.force.length = mb.bodies.length) (hq : ValidQ mb mbc.q)
    (hv : mbc.VelReady mb) {d : FD K} (hd : d.Fits mb) :
    ∃ d', d.computeC mb mbc = .ok d' ∧ (∀ i a, i < mb.bodies.length → a < mb.dofAt i → d'.C[mb.dofPosAt i + a]? =
        some (((mb.SAt i).getD a 0).dot (mb.wrenchAt mbc.q (mb.netForceAt mbc.q mbc.alpha [] ⟨0, mbc.gravity⟩ mbc.forceAt) i))) ∧
      d'.Fits mb ∧ d' = { d with C := d'.C, acc := d'.acc, f := d'.f } := by
  set n := mb.bodies.length with hn
  set q := mbc.q with hqd
  set net := mb.netForceAt q mbc.alpha [] ⟨0, mbc.gravity⟩ mbc.forceAt with hnet
  have hX : Filled mbc.parentToSon (fun i => some (mb.ptsAt q i)) n n := by rw [hv.parentToSon]; exact .of_range_map
  have hS : Filled mbc.motionSubspace (fun i => some (mb.SAt i)) n n := by rw [hv.motionSubspace]; exact .of_range_map
  have hs := wf.wrenchAt_rec hr hq net
  unfold FD.computeC
  rw [cLoop_eq wf hr sz hq hv hd, ← hn, ← hqd, ← hnet]
  simp only [Res.bind_ok]
  set acc' := (List.range n).map (mb.accAt q mbc.alpha [] ⟨0, mbc.gravity⟩) with hacc
  refine (foldlM_range_reverse_inv (cBackStep mb mbc) (fun k s =>
    Accum mb.par (fun c => (mb.ptsAt q c).transMul) net (mb.wrenchAt q net) s.f k n ∧ s.C.length = mb.nrDof ∧
    (∀ i a, k ≤ i → i < n → a < mb.dofAt i → s.C[mb.dofPosAt i + a]? = some (((mb.SAt i).getD a 0).dot (mb.wrenchAt q net i))) ∧
    s = { d with acc := acc', C := s.C, f := s.f }) n { d with f := (List.range n).map net, acc := acc' }
    ⟨.start .of_range_map, hd.C, fun i a h1 h2 => by omega, rfl⟩ ?_).elim ?_
  · rintro i s hi ⟨f1, f2, f3, e⟩
    have hi' : i < mb.bodies.length := hi
    obtain ⟨j, hj, hdof⟩ := wf.rd_joint hi
    have hf : rd s.f i = .ok (mb.wrenchAt q net i) := rd_of_getElem? (f1.get wf.par_lt hs hi)
    have hp : rd s.dofPos i = .ok (mb.dofPosAt i) := by
      rw [e]
      show rd d.dofPos i = _
      rw [hd.dofPos]; exact rd_of_getElem? (range_map_getElem? hi)
    have hSl := wf.SAt_length hi
    have hle := wf.dofPosAt_add_le hi
    set w := (mb.SAt i).map fun c => c.dot (mb.wrenchAt q net i) with hw
    have hwl : w.length = mb.dofAt i := by simp [hw, hSl]
    have hseg : setSegment s.C (mb.dofPosAt i) (mb.dofAt i) w =
        .ok (s.C.take (mb.dofPosAt i) ++ w ++ s.C.drop (mb.dofPosAt i + mb.dofAt i)) := by
      unfold setSegment; rw [if_pos ⟨by omega, hwl⟩]
    set C' := s.C.take (mb.dofPosAt i) ++ w ++ s.C.drop (mb.dofPosAt i + mb.dofAt i) with hC'
    have hC'l : C'.length = mb.nrDof := by
      simp only [hC', List.length_append, List.length_take, List.length_drop, hwl]; omega
    have hC'get : ∀ m a, i ≤ m → m < n → a < mb.dofAt m →
        C'[mb.dofPosAt m + a]? = some (((mb.SAt m).getD a 0).dot (mb.wrenchAt q net m)) := by
      intro m a hm hmn ha
      have htl : (s.C.take (mb.dofPosAt i)).length = mb.dofPosAt i := by simp; omega
      rcases Nat.eq_or_lt_of_le hm with rfl | hm
      · rw [hC', List.append_assoc, List.getElem?_append_right (by omega), htl, Nat.add_sub_cancel_left,
          List.getElem?_append_left (by omega), hw, List.getElem?_map, List.getElem?_eq_getElem (by omega)]
        simp [List.getD_eq_getElem?_getD, List.getElem?_eq_getElem (show a < (mb.SAt i).length by omega)]
      · have h1 := mb.dofPosAt_succ (i := i) (by rw [wf.njoints]; exact hi)
        have h2 := mb.dofPosAt_mono (i := i + 1) (j := m) hm
        rw [hC', List.getElem?_append_right (by simp only [List.length_append]; omega), List.getElem?_drop, ← f3 m a (by omega) hmn ha]
        congr 1
        simp only [List.length_append]
        omega
    obtain ⟨p, hpr, ⟨rfl, hpar⟩ | ⟨k, rfl, hpar, hk⟩⟩ := wf.pred_cases hi
    · simp only [cBackStep, hj, hS.rd hi, hf, hp, hdof, ← hw, hseg, hpr, Res.bind_ok, ne_eq, not_true_eq_false, if_false, Res.pure_eq,
        Except.ok.injEq, exists_eq_left']
      exact ⟨f1.skip hpar, hC'l, hC'get, by rw [e]⟩
    · have hne : ((k : Int) ≠ -1) := by omega
      have bk : k < s.f.length := by rw [f1.1]; omega
      obtain ⟨x, hx⟩ : ∃ x, s.f[k]? = some x := ⟨_, List.getElem?_eq_getElem bk⟩
      simp only [cBackStep, hj, hS.rd hi, hf, hp, hdof, ← hw, hseg, hpr, hX.rd hi, Res.bind_ok, ne_eq, hne, not_false_eq_true, if_true,
        rdI_ofNat, wrI_ofNat, rd_of_getElem? hx, wr_ok bk, Res.pure_eq, Except.ok.injEq, exists_eq_left']
      exact ⟨f1.step hi hpar (by omega) hx, hC'l, hC'get, by rw [e]⟩
  · rintro s ⟨h, f1, f2, f3, e⟩
    refine ⟨s, h, fun i a hi ha => f3 i a (Nat.zero_le _) hi ha, ?_, by rw [e]⟩
    exact ⟨by rw [e]; exact hd.Hrows, by rw [e]; exact hd.Hcols, f2, by rw [e]; exact hd.Ist, by rw [e]; exact hd.F,
      by rw [e]; simp [hacc, hn], f1.1, by rw [e]; exact hd.tmpFd, by rw [e]; exact hd.dofPos⟩

end RBDyn
