import Verif.Lemmas.ReuseMore

/-! Two runs on objects that differ in their working memory only: the constructor of `CoMJacobian`, and the regressor. -/

namespace RBDyn
variable {K : Type} [Scalar K]
variable {α β γ δ : Type}
variable {mb : MultiBody K}

theorem CoMJac.update_alike {c c' : CoMJac K} (hc : c.coeff.length = mb.bodies.length ∧ c'.coeff.length = mb.bodies.length)
    (hm : c.com.length = mb.bodies.length ∧ c'.com.length = mb.bodies.length) (hw : c.weight = c'.weight) :
    Alike (fun r r' : CoMJac K => (r.coeff = r'.coeff ∧ r.com = r'.com) ∧ r = { c with coeff := r.coeff, com := r.com } ∧
      r' = { c' with coeff := r'.coeff, com := r'.com }) (c.update mb) (c'.update mb) := by
  unfold CoMJac.update
  refine .same _ fun mass _ => ?_
  refine Alike.imp (Alike.range (fun k (r r' : CoMJac K) => (AgreeTo mb.bodies.length k r.coeff r'.coeff ∧
    AgreeTo mb.bodies.length k r.com r'.com) ∧ r = { c with coeff := r.coeff, com := r.com } ∧ r' = { c' with coeff := r'.coeff, com := r'.com })
    ⟨⟨.zero hc.1 hc.2, .zero hm.1 hm.2⟩, rfl, rfl⟩ ?_) ?_
  · rintro i s t hi ⟨⟨ha, hb⟩, e, e'⟩
    have ew : s.weight = t.weight := by rw [e, e']; exact hw
    unfold CoMJac.updateStep
    rw [ew]
    refine .same _ fun b _ => .same _ fun w _ => (Alike.wr (ha.left.trans ha.right.symm) i _).bind ?_
    rintro _ _ ⟨rfl, rfl, -⟩
    refine (Alike.wr (hb.left.trans hb.right.symm) i _).bind ?_
    rintro _ _ ⟨rfl, rfl, -⟩
    exact .pure ⟨⟨ha.set _, hb.set _⟩, by rw [← ew, e], by rw [e']⟩
  · rintro s t ⟨⟨ha, hb⟩, e, e'⟩
    exact ⟨⟨ha.eq le_rfl, hb.eq le_rfl⟩, e, e'⟩

theorem CoMJac.mk'_alike (wf : mb.WF) (junkV junkV' : Nat → MotionVec K) (junkK junkK' : Nat → K) (junkX junkX' : Nat → PTransform K)
    (junkC junkC' : Nat → Vec3 K) (w : List K) :
    Alike (CoMJac.Same mb) (CoMJac.mk' junkV junkK junkX junkC mb w) (CoMJac.mk' junkV' junkK' junkX' junkC' mb w) := by
  unfold CoMJac.mk'
  dsimp only
  split
  · rfl
  · unfold CoMJac.init
    refine (CoMJac.update_alike (mb := mb) ⟨?_, ?_⟩ ⟨?_, ?_⟩ ?_).bind ?_
    iterate 4 · simp [MultiBody.nrBodies]
    · rfl
    rintro c c' ⟨⟨e1, e2⟩, e, e'⟩
    have hs : c.sub = c'.sub := by rw [e, e']
    rw [hs]
    have hn : mb.nrJoints = mb.bodies.length := wf.njoints
    refine .same _ fun sub _ => .pure ?_
    rw [e, e']
    exact ⟨by simp, by simp, e1, e2, rfl, by simp [MultiBody.nrBodies], by simp [MultiBody.nrBodies], by simp [hn], rfl⟩

/-! ### The regressor -/

/-- Two regressors that agree in the blocks that are `done`. -/
structure YSame (mb : MultiBody K) (done : Nat → Nat → Prop) (Y Y' : DMat K) : Prop where
  left : IDIM.Fits mb ⟨Y⟩
  right : IDIM.Fits mb ⟨Y'⟩
  agree : ∀ i a k c, i < mb.bodies.length → k < mb.bodies.length → a < mb.dofAt i → c < 10 → done i k →
    Y.get (mb.dofPosAt i + a) (k * 10 + c) = Y'.get (mb.dofPosAt i + a) (k * 10 + c)

theorem YSame.set (wf : mb.WF) {done done' : Nat → Nat → Prop} {Y Y' : DMat K} (h : YSame mb done Y Y') {i k : Nat}
    (hi : i < mb.bodies.length) (hik : i ∈ pathUp mb.par k) (B : DMat K)
    (hd : ∀ i' k', done' i' k' → done i' k' ∨ (i' = i ∧ k' = k)) :
    Alike (YSame mb done') (Y.setBlock (mb.dofPosAt i) (k * 10) (mb.dofAt i) 10 B) (Y'.setBlock (mb.dofPosAt i) (k * 10) (mb.dofAt i) 10 B) := by
  obtain ⟨⟨l1, l2, l3⟩, ⟨r1, r2, r3⟩, h3⟩ := h
  dsimp only at l1 l2 l3 r1 r2 r3
  unfold DMat.setBlock
  rw [l1, l2, r1, r2]
  have e : ∀ i' a k' c, i' < mb.bodies.length → a < mb.dofAt i' → c < 10 →
      ((mb.dofPosAt i ≤ mb.dofPosAt i' + a ∧ mb.dofPosAt i' + a < mb.dofPosAt i + mb.dofAt i ∧
      k * 10 ≤ k' * 10 + c ∧ k' * 10 + c < k * 10 + 10) ↔ i' = i ∧ k' = k) := by
    intro i' a k' c hi' ha hc
    have s1 := wf.in_segment hi hi' ha
    rw [← and_assoc, s1]
    constructor
    · rintro ⟨rfl, h⟩; exact ⟨rfl, by omega⟩
    · rintro ⟨rfl, rfl⟩; exact ⟨rfl, by omega, by omega⟩
  split
  · refine .ok ⟨⟨rfl, rfl, ?_⟩, ⟨rfl, rfl, ?_⟩, ?_⟩
    · intro i' a k' c hi' hk' ha hc hp
      simp only [e i' a k' c hi' ha hc]
      rw [if_neg (by rintro ⟨rfl, rfl⟩; exact hp hik)]
      exact l3 i' a k' c hi' hk' ha hc hp
    · intro i' a k' c hi' hk' ha hc hp
      simp only [e i' a k' c hi' ha hc]
      rw [if_neg (by rintro ⟨rfl, rfl⟩; exact hp hik)]
      exact r3 i' a k' c hi' hk' ha hc hp
    · intro i' a k' c hi' hk' ha hc hdone
      simp only [e i' a k' c hi' ha hc]
      by_cases hij : i' = i ∧ k' = k
      · rw [if_pos hij, if_pos hij]
      · rw [if_neg hij, if_neg hij]
        rcases hd _ _ hdone with h | h
        · exact h3 i' a k' c hi' hk' ha hc h
        · exact absurd h hij
  · rfl

theorem yUp_alike (wf : mb.WF) (mbc : MBC K) {i : Nat} (hi : i < mb.bodies.length) : ∀ (fuel j : Nat) (F : List (ForceVec K)) (Y Y' : DMat K)
    (done done' : Nat → Nat → Prop), j ∈ pathUp mb.par i → YSame mb done Y Y' →
    (∀ i' k', done' i' k' → done i' k' ∨ (k' = i ∧ i' ∈ pathUp mb.par j ∧ i' ≠ j)) →
    Alike (YSame mb done') (yUp mb mbc i fuel j F Y) (yUp mb mbc i fuel j F Y') := by
  intro fuel
  induction fuel with
  | zero => exact fun _ _ _ _ _ _ _ _ _ => rfl
  | succ fuel ih =>
    intro j F Y Y' done done' hji hY hd
    have hjn : j < mb.bodies.length := by have := le_of_mem_pathUp hji; omega
    unfold yUp
    obtain ⟨p, hpr, ⟨rfl, hpar⟩ | ⟨k, rfl, hpar, hk⟩⟩ := wf.pred_cases hjn
    · rw [hpr, Res.bind_ok, Res.bind_ok, if_neg (by simp), if_neg (by simp)]
      refine .pure ⟨hY.left, hY.right, fun i' a k' c h1 h2 h3 h4 h5 => hY.agree i' a k' c h1 h2 h3 h4 ?_⟩
      rcases hd _ _ h5 with h | ⟨-, h, h'⟩
      · exact h
      · rw [mem_pathUp_none hpar] at h; exact absurd h h'
    · have hkn : k < mb.bodies.length := by omega
      have hki : k ∈ pathUp mb.par i := pathUp_trans hji (by rw [mem_pathUp_some hpar hk]; exact .inr (self_mem_pathUp _ _))
      have hd' : ∀ i' k', done' i' k' → (done i' k' ∨ (i' = k ∧ k' = i)) ∨ (k' = i ∧ i' ∈ pathUp mb.par k ∧ i' ≠ k) := by
        intro i' k' h
        rcases hd _ _ h with h | ⟨h1, h2, h3⟩
        · exact .inl (.inl h)
        · rw [mem_pathUp_some hpar hk] at h2
          rcases h2 with h2 | h2
          · exact absurd h2 h3
          · by_cases h : i' = k
            · exact .inl (.inr ⟨h, h1⟩)
            · exact .inr ⟨h1, h2, h⟩
      rw [hpr, Res.bind_ok, Res.bind_ok, if_pos (by omega : (k : Int) ≠ -1), if_pos (by omega : (k : Int) ≠ -1)]
      refine .same _ fun X _ => .same _ fun F _ => ?_
      rw [if_neg (by omega : ¬ (k : Int) < 0), Res.pure_eq, Res.bind_ok, Res.bind_ok, Int.toNat_natCast, wf.rd_posDof hkn, Res.bind_ok, Res.bind_ok]
      refine .same _ fun jj hjj => ?_
      have hdof := dofAt_of_rd hjj
      by_cases hz : jj.dof ≠ 0
      · simp only [if_pos hz]
        refine .same _ fun S _ => ?_
        rw [← hdof]
        refine (hY.set (done' := fun i' k' => done i' k' ∨ (i' = k ∧ k' = i)) wf hkn hki _ fun _ _ h => h).bind fun U V hUV => ?_
        exact ih k F U V _ done' hki hUV hd'
      · simp only [if_neg hz, Res.pure_eq, Res.bind_ok]
        refine ih k F Y Y' (fun i' k' => done i' k' ∨ (i' = k ∧ k' = i)) done' hki ⟨hY.left, hY.right, ?_⟩ hd'
        intro i' a k' c h1 h2 h3 h4 h5
        rcases h5 with h5 | ⟨rfl, -⟩
        · exact hY.agree i' a k' c h1 h2 h3 h4 h5
        · omega

theorem computeY_alike (wf : mb.WF) (mbc : MBC K) {d d' : IDIM K} (h : d.Fits mb) (h' : d'.Fits mb) :
    Alike (fun r r' : IDIM K => r.Y.Agree r'.Y ∧ r.Fits mb ∧ r'.Fits mb) (d.computeY mb mbc) (d'.computeY mb mbc) := by
  unfold IDIM.computeY
  refine Alike.bind (Alike.range_reverse (fun k => YSame mb fun i' k' => k ≤ k' ∧ i' ∈ pathUp mb.par k')
    ⟨h, h', fun i a k c _ hk _ _ hdone => absurd hdone.1 (by omega)⟩ ?_) ?_
  · intro i Y Y' hi hY
    unfold yStep
    refine .same _ fun vb _ => .same _ fun ab _ => .same _ fun F _ => ?_
    rw [wf.rd_posDof hi, Res.bind_ok, Res.bind_ok]
    refine .same _ fun j hj => .same _ fun S _ => ?_
    rw [← dofAt_of_rd hj]
    refine (hY.set (done' := fun i' k' => (i + 1 ≤ k' ∧ i' ∈ pathUp mb.par k') ∨ (i' = i ∧ k' = i)) wf hi (self_mem_pathUp _ _) _
      fun _ _ h => h).bind fun U V hUV => ?_
    refine yUp_alike wf mbc hi _ i F U V _ _ (self_mem_pathUp _ _) hUV ?_
    rintro i' k' ⟨h1, h2⟩
    rcases Nat.eq_or_lt_of_le h1 with rfl | h1
    · by_cases h : i' = i
      · exact .inl (.inr ⟨h, rfl⟩)
      · exact .inr ⟨rfl, h2, h⟩
    · exact .inl (.inl ⟨h1, h2⟩)
  · intro Y Y' hY
    refine .pure ⟨⟨hY.left.rows.trans hY.right.rows.symm, hY.left.cols.trans hY.right.cols.symm, ?_⟩, hY.left, hY.right⟩
    intro r c hr hc
    rw [hY.left.rows] at hr
    rw [hY.left.cols] at hc
    obtain ⟨i, a, hi, ha, rfl⟩ := wf.exists_segment hr
    have e : c = c / 10 * 10 + c % 10 := by omega
    have hk : c / 10 < mb.bodies.length := by omega
    rw [e]
    by_cases hp : i ∈ pathUp mb.par (c / 10)
    · exact hY.agree i a _ _ hi hk ha (by omega) ⟨Nat.zero_le _, hp⟩
    · rw [hY.left.zero i a _ _ hi hk ha (by omega) hp, hY.right.zero i a _ _ hi hk ha (by omega) hp]

theorem IDIM.mk'_fits : (IDIM.mk' mb).Fits mb := ⟨rfl, rfl, fun _ _ _ _ _ _ _ _ _ => rfl⟩

end RBDyn
