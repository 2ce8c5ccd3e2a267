import Mathlib.Analysis.SpecialFunctions.Pow.Real
import Verif.Props.Order
import Verif.Props.Halving

/-! Property C68: the integrated motion converges to the exact one when the precision goes to zero. -/

namespace RBDyn
open scoped Mat3 Quaternion

/-- One expansion that stopped without warning and not at the test of the acceleration is short. -/
theorem step_size {w d : Vec3 ℝ} {h ae : ℝ} (hm : (magnusExpansion w d h ae ae).2 = false) (hd : ae ≤ d.normSq) :
    h ^ 10 * (d.normSq * (w.cross d).normSq) ≤ 57600 * ae ^ 2 ∨
      h ^ 14 * (w.cross d).normSq ^ 3 ≤ 101606400 * d.normSq * ae ^ 2 := by
  have e1 : (h / 2) • (w + (w + h • d)) = magnusTerm w d h 0 := term0 w d h
  have e2 : ((h * h / 12) • w.cross (w + h • d)).normSq = h ^ 6 * (w.cross d).normSq / 144 := by
    simp only [Vec3.normSq, Vec3.dot, Vec3.cross, Vec3.add_x, Vec3.add_y, Vec3.add_z, Vec3.smul_x, Vec3.smul_y, Vec3.smul_z]
    ring
  have hl : h ^ 2 * (w.cross d).normSq ≤ (magnusTerm w d h 0).normSq * d.normSq := by
    have : (magnusTerm w d h 0).normSq * d.normSq =
        h ^ 2 * (w.cross d).normSq + (magnusTerm w d h 0).dot d ^ 2 := by
      simp only [magnusTerm, Vec3.normSq, Vec3.dot, Vec3.cross, Vec3.add_x, Vec3.add_y, Vec3.add_z, Vec3.smul_x, Vec3.smul_y, Vec3.smul_z]
      ring
    nlinarith [sq_nonneg ((magnusTerm w d h 0).dot d)]
  simp only [magnusExpansion, not_lt.2 hd, if_false, e1, e2] at hm
  have hN := (w.cross d).normSq_nonneg
  have hD := d.normSq_nonneg
  have hA := (magnusTerm w d h 0).normSq_nonneg
  generalize (magnusTerm w d h 0).normSq = A at *
  generalize (w.cross d).normSq = N at *
  generalize d.normSq = D at *
  generalize (if 0 < A then ae * ae * A else 1) = r at *
  have hmin : min r (ae * ae) ≤ ae ^ 2 := by rw [sq]; exact min_le_right _ _
  generalize (min r (ae * ae) : ℝ) = m at *
  split_ifs at hm with h1 h2
  · left
    have := h1.1
    nlinarith
  · right
    have hs := Real.sqrt_nonneg (D * (h * h) * (h * h) * A * (h ^ 6 * N / 144))
    generalize √(D * (h * h) * (h * h) * A * (h ^ 6 * N / 144)) = s at *
    have h6 : 0 ≤ h ^ 6 := by positivity
    have hAN : 0 ≤ A * (h ^ 6 * N / 144) := by positivity
    have h3 : D * (h * h) * (h * h) * A * (A * (h ^ 6 * N / 144)) / (840 * 840) ≤
        (D * (h * h) * (h * h) * A + 8 * s + 16 * (h ^ 6 * N / 144)) * A * (h ^ 6 * N / 144) / (840 * 840) := by
      have h16 : 0 ≤ 16 * (h ^ 6 * N / 144) := by positivity
      rw [mul_assoc (_ + _ + _)]
      gcongr
      linarith
    have h4 : D * h ^ 10 * N * A ^ 2 ≤ 101606400 * ae ^ 2 := by nlinarith
    have h5 : (h ^ 2 * N) ^ 2 ≤ (A * D) ^ 2 := by
      have : 0 ≤ h ^ 2 * N := by positivity
      gcongr
    have h10 : 0 ≤ h ^ 10 * N := by positivity
    calc h ^ 14 * N ^ 3 = h ^ 10 * N * (h ^ 2 * N) ^ 2 := by ring
      _ ≤ h ^ 10 * N * (A * D) ^ 2 := by gcongr
      _ = D * (D * h ^ 10 * N * A ^ 2) := by ring
      _ ≤ D * (101606400 * ae ^ 2) := by gcongr
      _ = 101606400 * D * ae ^ 2 := by ring

/-- When the velocity and the acceleration are parallel, a step is exact. -/
theorem parallel_exact {w d : Vec3 ℝ} (hc : w.cross d = 0) {Q : ℝ → Quat ℝ} (hQ : Turns w d Q) (h re ae : ℝ) :
    (SO3Integration (Q 0) w d h re ae).1.toH = (Q h).toH := by
  have t1 : magnusTerm w d h 1 = 0 := by simp only [magnusTerm, hc]; ext <;> simp
  have t2 : magnusTerm w d h 2 = 0 := by simp only [magnusTerm, hc]; ext <;> simp
  have t3 : magnusTerm w d h 3 = 0 := by
    simp only [magnusTerm, hc]; ext <;> simp
  have t4 : magnusTerm w d h 4 = 0 := by
    simp only [magnusTerm, hc]
    ext <;> simp [Vec3.normSq, Vec3.dot]
  have e : (magnusExpansion w d h re ae).1 = magnusTerm w d h 0 := by
    obtain ⟨e, -⟩ | ⟨-, e | e | e⟩ := magnus_cases w d h re ae <;> rw [e] <;> simp only [t1, t2, t3, t4] <;> ext <;> simp
  rw [so3_toH, e]
  have hp : ∀ t : ℝ, HasDerivAt (fun t => (Q 0).toH * (expq ((1 / 2 : ℝ) • magnusTerm w d t 0)).toH)
      ((1 / 2 : ℝ) • ((Q 0).toH * (expq ((1 / 2 : ℝ) • magnusTerm w d t 0)).toH * (w + t • d).toH)) t := by
    intro t
    have hd : HasDerivVec (fun t => magnusTerm w d t 0) (w + t • d) t := by
      constructor
      all_goals
        simp only [magnusTerm, Vec3.add_x, Vec3.add_y, Vec3.add_z, Vec3.smul_x, Vec3.smul_y, Vec3.smul_z]
      · exact (((hasDerivAt_id t).mul_const w.x).add ((((hasDerivAt_id t).pow 2).div_const 2).mul_const d.x)).congr_deriv (by simp)
      · exact (((hasDerivAt_id t).mul_const w.y).add ((((hasDerivAt_id t).pow 2).div_const 2).mul_const d.y)).congr_deriv (by simp)
      · exact (((hasDerivAt_id t).mul_const w.z).add ((((hasDerivAt_id t).pow 2).div_const 2).mul_const d.z)).congr_deriv (by simp)
    refine ((expq_moving hd).const_mul ((Q 0).toH)).congr_deriv ?_
    have hz : (magnusTerm w d t 0).cross (w + t • d) = 0 := by
      have : (magnusTerm w d t 0).cross (w + t • d) = (t ^ 2 / 2) • w.cross d := by
        simp only [magnusTerm]
        ext <;> simp <;> ring
      rw [this, hc]
      ext <;> simp
    have hb : bodyRate (magnusTerm w d t 0) (w + t • d) = w + t • d := by
      simp only [bodyRate, hz]
      ext <;> simp
    rw [hb, mul_smul_comm, mul_assoc]
  have e0 : expq ((1 / 2 : ℝ) • magnusTerm w d 0 0) = ⟨1, 0, 0, 0⟩ := by
    have : magnusTerm w d 0 0 = 0 := by simp only [magnusTerm]; ext <;> simp
    rw [this]
    simp [expq, Vec3.normSq, Vec3.dot]
  have h1 : (⟨1, 0, 0, 0⟩ : Quat ℝ).toH = 1 := by ext <;> simp
  have := quat_dist (p := fun t => (Q 0).toH * (expq ((1 / 2 : ℝ) • magnusTerm w d t 0)).toH) (q := fun t => (Q t).toH)
    (a := fun t => w + t • d) (b := fun t => w + t • d) (h := h) (C := 0) (by simp only [e0, h1, mul_one]) (hQ.norm 0)
    (fun t => by rw [norm_mul, hQ.norm 0, Quat.toH_norm, expq_normSq]; simp) (fun t => hQ.norm t) hp (fun t => hQ.toH t)
    (fun t _ => by simp [Vec3.normSq, Vec3.dot])
  have := norm_le_zero_iff.1 (this.trans (by simp))
  exact sub_eq_zero.1 this

/-- The error of one step when the start is not on the exact motion. -/
theorem so3_from (q : Quat ℝ) (w d : Vec3 ℝ) (h re ae : ℝ) (p r : Quat ℝ) :
    (SO3Integration q w d h re ae).1.dist r ≤ q.dist p + (SO3Integration p w d h re ae).1.dist r := by
  rw [Quat.dist_eq, Quat.dist_eq, Quat.dist_eq]
  refine (norm_sub_le_norm_sub_add_norm_sub _ (SO3Integration p w d h re ae).1.toH _).trans ?_
  gcongr
  rw [so3_toH, so3_toH, ← sub_mul, norm_mul, Quat.toH_norm (expq _), expq_normSq]
  simp

theorem Pieces.forward {S : Type} {one : ℝ → ℝ → S → S → Prop} {σ : ℝ} (ho : ∀ t h s s', one t h s s' → 0 ≤ σ * h) {t t' : ℝ} {s s' : S}
    (hp : Pieces one t t' s s') : σ * t ≤ σ * t' := by
  induction hp with
  | nil => exact le_rfl
  | cons h1 _ ih =>
    have := ho _ _ _ _ h1
    linarith

/-- What holds at the start and is kept by the pieces holds at every piece. -/
theorem Pieces.guard {S : Type} {one : ℝ → ℝ → S → S → Prop} {P : ℝ → S → Prop} {σ T : ℝ} (ho : ∀ t h s s', one t h s s' → 0 ≤ σ * h)
    (hP : ∀ t h s s', one t h s s' → 0 ≤ σ * t → σ * (t + h) ≤ T → P t s → P (t + h) s') {t t' : ℝ} {s s' : S}
    (hp : Pieces one t t' s s') (h0 : 0 ≤ σ * t) (h1 : σ * t' ≤ T) (hs : P t s) :
    Pieces (fun t h s s' => one t h s s' ∧ P t s ∧ P (t + h) s' ∧ 0 ≤ σ * t ∧ σ * (t + h) ≤ T) t t' s s' ∧ P t' s' := by
  induction hp with
  | nil => exact ⟨.nil _ _, hs⟩
  | @cons t h t' s s' s'' h2 h3 ih =>
    have a := ho _ _ _ _ h2
    have b := (Pieces.forward ho h3).trans h1
    obtain ⟨c, e⟩ := ih (by linarith) h1 (hP _ _ _ _ h2 h0 b hs)
    exact ⟨.cons ⟨h2, hs, hP _ _ _ _ h2 h0 b hs, h0, b⟩ c, e⟩

theorem Pieces.inv {S : Type} {one : ℝ → ℝ → S → S → Prop} {P : S → Prop} (ho : ∀ t h s s', one t h s s' → P s → P s') {t t' : ℝ} {s s' : S}
    (hp : Pieces one t t' s s') (h : P s) : P s' := by
  induction hp with
  | nil => exact h
  | cons h1 _ ih => exact ih (ho _ _ _ _ h1 h)

theorem exists_sign (step : ℝ) : ∃ σ : ℝ, |σ| = 1 ∧ σ * step = |step| := by
  rcases le_total 0 step with h | h
  · exact ⟨1, by simp, by rw [abs_of_nonneg h, one_mul]⟩
  · exact ⟨-1, by simp, by rw [abs_of_nonpos h]; ring⟩

theorem sign_half {σ step : ℝ} (h : σ * step = |step|) (k : ℕ) : 0 ≤ σ * (step / 2 ^ k) := by
  rw [← mul_div_assoc, h]; positivity

theorem sign_abs {σ x : ℝ} (hσ : |σ| = 1) (h : 0 ≤ σ * x) : |x| = σ * x := by
  rw [← abs_of_nonneg h, abs_mul, hσ, one_mul]

/-- The pieces get short when the precision gets small. -/
theorem piece_short {w d : Vec3 ℝ} (hc : w.cross d ≠ 0) (T : ℝ) : ∃ L, 0 ≤ L ∧ ∀ (t h prec : ℝ), 0 < prec → prec ≤ d.normSq → |h| ≤ T →
    (magnusExpansion (w + t • d) d h prec prec).2 = false → |h| ^ 4 ≤ L * prec ^ (4 / 7 : ℝ) := by
  have hN : 0 < (w.cross d).normSq := normSq_pos hc
  have hD : 0 < d.normSq := by
    refine normSq_pos fun h => hc ?_
    rw [h]; ext <;> simp
  refine ⟨(57600 * T ^ 4 / (d.normSq * (w.cross d).normSq) + 101606400 * d.normSq / (w.cross d).normSq ^ 3) ^ (2 / 7 : ℝ), by positivity,
    fun t h prec h0 hp hh hm => ?_⟩
  have hx : (w + t • d).cross d = w.cross d := by ext <;> simp <;> ring
  have key := step_size hm hp
  rw [hx] at key
  generalize (w.cross d).normSq = N at *
  generalize d.normSq = D at *
  have h14 : h ^ 14 ≤ (57600 * T ^ 4 / (D * N) + 101606400 * D / N ^ 3) * prec ^ 2 := by
    have p1 : 0 ≤ 57600 * T ^ 4 / (D * N) * prec ^ 2 := by positivity
    have p2 : 0 ≤ 101606400 * D / N ^ 3 * prec ^ 2 := by positivity
    rw [add_mul]
    rcases key with k | k
    · have h4 : h ^ 4 ≤ T ^ 4 := by
        rw [← Even.pow_abs (by decide : Even 4) h]
        gcongr
      have : h ^ 14 ≤ 57600 * T ^ 4 / (D * N) * prec ^ 2 := by
        rw [div_mul_eq_mul_div, le_div_iff₀ (by positivity)]
        have hT : 0 ≤ T ^ 4 := by positivity
        have h10 : 0 ≤ h ^ 10 := by positivity
        calc h ^ 14 * (D * N) = h ^ 4 * (h ^ 10 * (D * N)) := by ring
          _ ≤ T ^ 4 * (57600 * prec ^ 2) := by gcongr
          _ = _ := by ring
      linarith
    · have : h ^ 14 ≤ 101606400 * D / N ^ 3 * prec ^ 2 := by
        rw [div_mul_eq_mul_div, le_div_iff₀ (by positivity)]
        exact k
      linarith
  have e : |h| ^ 4 = (h ^ 14) ^ (2 / 7 : ℝ) := by
    rw [← Even.pow_abs (by decide : Even 14) h, ← Real.rpow_natCast |h| 14, ← Real.rpow_mul (abs_nonneg h), ← Real.rpow_natCast |h| 4]
    norm_num
  have e2 : (prec ^ 2) ^ (2 / 7 : ℝ) = prec ^ (4 / 7 : ℝ) := by
    rw [← Real.rpow_natCast prec 2, ← Real.rpow_mul h0.le]
    norm_num
  rw [e, ← e2, ← Real.mul_rpow (by positivity) (by positivity)]
  exact Real.rpow_le_rpow (by positivity) h14 (by norm_num)

/-- The orientation along a sequence of expansions without warning, at the end of each of them. -/
theorem pieces_turn {w d : Vec3 ℝ} {Q : ℝ → Quat ℝ} (hQ : Turns w d Q) {σ step : ℝ} (hσ : |σ| = 1) (hs : σ * step = |step|) :
    ∃ K p0, 0 ≤ K ∧ 0 < p0 ∧ ∀ (S : Type) (f : S → Quat ℝ) (one : ℝ → ℝ → S → S → Prop) (prec : ℝ), 0 < prec → prec ≤ p0 →
      (∀ t h s s', one t h s s' → (∃ k : ℕ, h = step / 2 ^ k) ∧ SO3Integration (f s) (w + t • d) d h prec prec = (f s', false)) →
      ∀ (s s' : S), Pieces one 0 step s s' → f s = Q 0 →
        Pieces (fun t h s s' => one t h s s' ∧ (f s).dist (Q t) ≤ K * prec ^ (4 / 7 : ℝ) ∧
          (f s').dist (Q (t + h)) ≤ K * prec ^ (4 / 7 : ℝ) ∧ 0 ≤ σ * t ∧ σ * (t + h) ≤ |step|) 0 step s s' ∧
          (f s').dist (Q step) ≤ K * prec ^ (4 / 7 : ℝ) := by
  have hz : ∀ q : Quat ℝ, q.dist q = 0 := fun q => by rw [Quat.dist_eq, sub_self, norm_zero]
  by_cases hc : w.cross d = 0
  · refine ⟨0, 1, le_rfl, one_pos, fun S f one prec h0 _ ho s s' hp hi => ?_⟩
    rw [zero_mul]
    refine Pieces.guard (P := fun t s => (f s).dist (Q t) ≤ 0) (σ := σ) (T := |step|) ?_ ?_ hp (by simp) hs.le (by rw [hi, hz])
    · intro t h s s' h1
      obtain ⟨⟨k, rfl⟩, -⟩ := ho _ _ _ _ h1
      exact sign_half hs k
    · intro t h s s' h1 _ _ h2
      have h3 := (ho _ _ _ _ h1).2
      have hx : (w + t • d).cross d = 0 := by rw [← hc]; ext <;> simp <;> ring
      have h4 := parallel_exact hx (hQ.shift t) h prec prec
      have h5 := so3_from (f s) (w + t • d) d h prec prec (Q t) (Q (t + h))
      rw [h3, Quat.dist_eq _ (Q (t + h)), Quat.dist_eq _ (Q (t + h))] at h5
      simp only [add_zero] at h4
      rw [h4, sub_self, norm_zero] at h5
      rw [Quat.dist_eq]
      linarith
  · have hD : 0 < d.normSq := by
      refine normSq_pos fun h => hc ?_
      rw [h]; ext <;> simp
    obtain ⟨L, hL, hl⟩ := piece_short hc |step|
    let M := √w.normSq + |step| * √d.normSq + √d.normSq + |step|
    obtain ⟨C, hC, hb⟩ := C67_order M
    have hw0 := Real.sqrt_nonneg w.normSq
    have hd0 := Real.sqrt_nonneg d.normSq
    have hsd : 0 ≤ |step| * √d.normSq := by positivity
    have hM : 0 ≤ M := by positivity
    refine ⟨C * L * |step|, d.normSq, by positivity, hD, fun S f one prec h0 h1 ho s s' hp hi => ?_⟩
    have ho' : ∀ t h s s', one t h s s' → 0 ≤ σ * h := by
      intro t h s s' h1
      obtain ⟨⟨k, rfl⟩, -⟩ := ho _ _ _ _ h1
      exact sign_half hs k
    have hp0 : 0 ≤ prec ^ (4 / 7 : ℝ) := by positivity
    have key := Pieces.guard (P := fun t s => (f s).dist (Q t) ≤ C * L * prec ^ (4 / 7 : ℝ) * (σ * t)) (σ := σ) (T := |step|) ho' ?_ hp
      (by simp) hs.le (by rw [hi, hz]; simp)
    · refine ⟨key.1.mono ?_, ?_⟩
      · rintro t h s s' ⟨a, b, b', c, e⟩
        have := ho' _ _ _ _ a
        refine ⟨a, b.trans ?_, b'.trans ?_, c, e⟩
        · calc C * L * prec ^ (4 / 7 : ℝ) * (σ * t) ≤ C * L * prec ^ (4 / 7 : ℝ) * |step| := by gcongr; linarith
            _ = _ := by ring
        · calc C * L * prec ^ (4 / 7 : ℝ) * (σ * (t + h)) ≤ C * L * prec ^ (4 / 7 : ℝ) * |step| := by gcongr
            _ = _ := by ring
      · refine key.2.trans (le_of_eq ?_)
        rw [hs]; ring
    · intro t h s s' h2 a b h3
      obtain ⟨-, h4⟩ := ho _ _ _ _ h2
      have hh := ho' _ _ _ _ h2
      have ht : |t| ≤ |step| := by rw [sign_abs hσ a]; linarith
      have hh' : |h| ≤ |step| := by rw [sign_abs hσ hh]; linarith
      have hwt : (w + t • d).normSq ≤ M ^ 2 := by
        rw [← Real.sqrt_le_left hM]
        calc √(w + t • d).normSq ≤ √w.normSq + √(t • d).normSq := vec_tri _ _
          _ = √w.normSq + |t| * √d.normSq := by rw [vec_smul]
          _ ≤ √w.normSq + |step| * √d.normSq := by gcongr
          _ ≤ M := by simp only [M]; linarith [abs_nonneg step]
      have hdM : d.normSq ≤ M ^ 2 := by
        rw [← Real.sqrt_le_left hM]
        simp only [M]
        linarith [abs_nonneg step]
      have h5 := (hb (w + t • d) d h prec prec _ hwt hdM (hh'.trans (by simp only [M]; linarith)) (hQ.shift t)).2 h1
      have h6 := so3_from (f s) (w + t • d) d h prec prec (Q t) (Q (t + h))
      simp only [add_zero] at h5
      have hm : (magnusExpansion (w + t • d) d h prec prec).2 = false := by
        have := congrArg Prod.snd h4
        simpa [SO3Integration] using this
      have h7 := hl t h prec h0 h1 hh' hm
      rw [h4] at h6
      calc (f s').dist (Q (t + h)) ≤ (f s).dist (Q t) + C * |h| ^ 5 := h6.trans (by gcongr)
        _ = (f s).dist (Q t) + C * |h| ^ 4 * (σ * h) := by rw [← sign_abs hσ hh]; ring
        _ ≤ C * L * prec ^ (4 / 7 : ℝ) * (σ * t) + C * (L * prec ^ (4 / 7 : ℝ)) * (σ * h) := by gcongr
        _ = C * L * prec ^ (4 / 7 : ℝ) * (σ * (t + h)) := by ring

theorem turns_spherical {a0 a1 a2 b0 b1 b2 : ℝ} {Q : ℝ → List ℝ} (hx : ValidParam .Spherical (Q 0))
    (hQ : ∀ s, HasDerivList Q (coordRate .Spherical (Q s) (List.zipWith (fun u v => u + v * s) [a0, a1, a2] [b0, b1, b2])) s) :
    Turns ⟨a0, a1, a2⟩ ⟨b0, b1, b2⟩ fun s => ⟨(Q s).getD 0 0, (Q s).getD 1 0, (Q s).getD 2 0, (Q s).getD 3 0⟩ := by
  obtain ⟨hl, hv⟩ := hx
  have h4 : ∀ s, (Q s).length = 4 := by
    intro s
    rw [(hQ 0).1 s, ← (hQ 0).1 0, hl]; rfl
  have hd : ∀ s i, HasDerivAt (fun s => (Q s).getD i 0) _ s := fun s i => (hQ s).2 i
  have hr : ∀ s, coordRate .Spherical (Q s) (List.zipWith (fun u v => u + v * s) [a0, a1, a2] [b0, b1, b2]) =
      [(-(Q s).getD 1 0 * (a0 + b0 * s) - (Q s).getD 2 0 * (a1 + b1 * s) - (Q s).getD 3 0 * (a2 + b2 * s)) / 2,
       ((Q s).getD 0 0 * (a0 + b0 * s) + (Q s).getD 2 0 * (a2 + b2 * s) - (Q s).getD 3 0 * (a1 + b1 * s)) / 2,
       ((Q s).getD 0 0 * (a1 + b1 * s) + (Q s).getD 3 0 * (a0 + b0 * s) - (Q s).getD 1 0 * (a2 + b2 * s)) / 2,
       ((Q s).getD 0 0 * (a2 + b2 * s) + (Q s).getD 1 0 * (a1 + b1 * s) - (Q s).getD 2 0 * (a0 + b0 * s)) / 2] := by
    intro s
    obtain ⟨c0, c1, c2, c3, e⟩ := list4 (h4 s)
    rw [e]; rfl
  simp only [hr] at hd
  have e4 : (Q 0) = [(Q 0).getD 0 0, (Q 0).getD 1 0, (Q 0).getD 2 0, (Q 0).getD 3 0] := by
    obtain ⟨c0, c1, c2, c3, e⟩ := list4 (h4 0)
    rw [e]; rfl
  rw [e4] at hv
  refine ⟨fun s => (hd s 0).congr_deriv ?_, fun s => (hd s 1).congr_deriv ?_, fun s => (hd s 2).congr_deriv ?_,
    fun s => (hd s 3).congr_deriv ?_, ?_⟩
  · simp; ring
  · simp; ring
  · simp; ring
  · simp; ring
  · exact hv

theorem Quat.dist_coord (p q : Quat ℝ) {e : ℝ} (h : p.dist q ≤ e) :
    |p.w - q.w| ≤ e ∧ |p.x - q.x| ≤ e ∧ |p.y - q.y| ≤ e ∧ |p.z - q.z| ≤ e := by
  have h0 : 0 ≤ e := (Real.sqrt_nonneg _).trans h
  rw [Quat.dist, Real.sqrt_le_left h0] at h
  refine ⟨abs_le_of_sq_le_sq ?_ h0, abs_le_of_sq_le_sq ?_ h0, abs_le_of_sq_le_sq ?_ h0, abs_le_of_sq_le_sq ?_ h0⟩ <;>
    nlinarith [sq_nonneg (p.w - q.w), sq_nonneg (p.x - q.x), sq_nonneg (p.y - q.y), sq_nonneg (p.z - q.z)]

theorem so3_unit {q r : Quat ℝ} {w d : Vec3 ℝ} {h re ae : ℝ} {b : Bool} (e : SO3Integration q w d h re ae = (r, b)) (hq : q.normSq = 1) :
    r.normSq = 1 := by
  have h1 : r.toH = q.toH * (expq ((1 / 2 : ℝ) • (magnusExpansion w d h re ae).1)).toH := by rw [← so3_toH, e]
  have h2 : ‖r.toH‖ = 1 := by rw [h1, norm_mul, Quat.toH_norm, Quat.toH_norm, hq, expq_normSq]; simp
  rwa [Quat.toH_norm, Real.sqrt_eq_one] at h2

/-- C68 for spherical joints: the orientation obtained by integration converges to the exact one when the precision goes to zero. -/
theorem C68_spherical {a b : List ℝ} (ha : a.length = 3) (hb : b.length = 3) {Q : ℝ → List ℝ} (hx : ValidParam .Spherical (Q 0))
    (hQ : ∀ s, HasDerivList Q (coordRate .Spherical (Q s) (List.zipWith (fun u v => u + v * s) a b)) s) (step : ℝ) :
    ∃ K p0, 0 < p0 ∧ ∀ prec, 0 < prec → prec ≤ p0 → ∀ fuel y, jointIntegration fuel .Spherical a b step (Q 0) prec = .ok y →
      y.length = 4 ∧ ∀ i < 4, |y.getD i 0 - (Q step).getD i 0| ≤ K * prec ^ (4 / 7 : ℝ) := by
  obtain ⟨a0, a1, a2, rfl⟩ := list3 ha
  obtain ⟨b0, b1, b2, rfl⟩ := list3 hb
  have hT := turns_spherical hx hQ
  obtain ⟨σ, hσ, hs⟩ := exists_sign step
  obtain ⟨K, p0, hK, hp0, key⟩ := pieces_turn hT hσ hs
  refine ⟨K, p0, hp0, fun prec h0 h1 fuel y hy => ?_⟩
  obtain ⟨c0, c1, c2, c3, e⟩ := list4 (show (Q 0).length = 4 from hx.1)
  have hn : (⟨c0, c1, c2, c3⟩ : Quat ℝ).normSq = 1 := by
    have := hT.unit
    simp only [e] at this
    exact this
  rw [e] at hy
  obtain ⟨r, hyr, hp⟩ := C66_spherical hy
  have hr : r.normSq = 1 := hp.inv (P := fun q => q.normSq = 1) (fun t h s s' h1 hs => so3_unit h1.2 hs) hn
  rw [hr, if_pos one_pos] at hyr
  simp only [Real.sqrt_one, div_one] at hyr
  obtain ⟨-, hd⟩ := key (Quat ℝ) id _ prec h0 h1 (fun t h s s' h2 => ⟨h2.1, by
    have := h2.2
    rwa [show (⟨a0 + t * b0, a1 + t * b1, a2 + t * b2⟩ : Vec3 ℝ) = (⟨a0, a1, a2⟩ : Vec3 ℝ) + t • ⟨b0, b1, b2⟩ by ext <;> simp] at this⟩)
    _ _ hp (by rw [e]; rfl)
  obtain ⟨d0, d1, d2, d3⟩ := Quat.dist_coord _ _ hd
  subst hyr
  refine ⟨rfl, fun i hi => ?_⟩
  match i, hi with
  | 0, _ => exact d0
  | 1, _ => exact d1
  | 2, _ => exact d2
  | 3, _ => exact d3

/-- Rotating a vector with a unit quaternion. -/
theorem toRot_toH {p : Quat ℝ} (hp : p.normSq = 1) (u : Vec3 ℝ) : (p.toRot *ᵥ u).toH = p.toH * u.toH * star p.toH := by
  have h : p.w ^ 2 + p.x ^ 2 + p.y ^ 2 + p.z ^ 2 = 1 := by
    rw [← hp]; simp only [Quat.normSq]; ring
  ext
  · simp; ring
  · simp [Quat.toRot]
    linear_combination (-u.x) * h
  · simp [Quat.toRot]
    linear_combination (-u.y) * h
  · simp [Quat.toRot]
    linear_combination (-u.z) * h

theorem toRot_dist {p q : Quat ℝ} (hp : p.normSq = 1) (hq : q.normSq = 1) (u : Vec3 ℝ) :
    √(p.toRot *ᵥ u - q.toRot *ᵥ u).normSq ≤ 2 * p.dist q * √u.normSq := by
  rw [Quat.dist_eq, ← Vec3.toH_norm, ← Vec3.toH_norm, Vec3.toH_sub, toRot_toH hp, toRot_toH hq]
  have e : p.toH * u.toH * star p.toH - q.toH * u.toH * star q.toH =
      (p.toH - q.toH) * u.toH * star p.toH + q.toH * u.toH * star (p.toH - q.toH) := by
    rw [star_sub]; noncomm_ring
  have np : ‖p.toH‖ = 1 := by rw [Quat.toH_norm, hp, Real.sqrt_one]
  have nq : ‖q.toH‖ = 1 := by rw [Quat.toH_norm, hq, Real.sqrt_one]
  rw [e]
  refine (norm_add_le _ _).trans (le_of_eq ?_)
  rw [norm_mul, norm_mul, norm_mul, norm_mul, norm_star, norm_star, np, nq]
  ring

end RBDyn
