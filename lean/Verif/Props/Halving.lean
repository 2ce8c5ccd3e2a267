import Verif.Lemmas.Simpson
import Verif.Props.Integration
import Verif.Props.Magnus

/-! Property C66: halving the step follows the motion. -/

namespace RBDyn
open scoped Mat3

/-- A motion from the time `t` to the time `t'` made of pieces; `one t h s s'` is a piece of duration `h` starting at `t`. -/
inductive Pieces {S : Type} (one : ℝ → ℝ → S → S → Prop) : ℝ → ℝ → S → S → Prop
  | nil (t : ℝ) (s : S) : Pieces one t t s s
  | cons {t h t' : ℝ} {s s' s'' : S} : one t h s s' → Pieces one (t + h) t' s' s'' → Pieces one t t' s s''

theorem Pieces.append {S : Type} {one : ℝ → ℝ → S → S → Prop} {t t' t'' : ℝ} {s s' s'' : S} (h : Pieces one t t' s s')
    (h' : Pieces one t' t'' s' s'') : Pieces one t t'' s s'' := by
  induction h with
  | nil => exact h'
  | cons h1 _ ih => exact .cons h1 (ih h')

theorem Pieces.single {S : Type} {one : ℝ → ℝ → S → S → Prop} {t h : ℝ} {s s' : S} (h1 : one t h s s') :
    Pieces one t (t + h) s s' := .cons h1 (.nil _ _)

theorem so3_no_warning {q r : Quat ℝ} {w wD : Vec3 ℝ} {step re ae : ℝ}
    (h : SO3Integration q w wD step re ae true = (r, false)) : SO3Integration q w wD step re ae = (r, false) := by
  rw [so3_break] at h
  rw [so3_eq]
  split at h
  · simp at h
  · rename_i h1
    rw [← h]
    simp [h1]

theorem spherical_pieces (w wD : Vec3 ℝ) (step prec : ℝ) : ∀ (fuel k : ℕ) (t h : ℝ) (q r : Quat ℝ), h = step / 2 ^ k →
    sphericalJointIntegration fuel q (w + t • wD) wD h prec = .ok r →
    Pieces (fun t h q q' => (∃ k : ℕ, h = step / 2 ^ k) ∧ SO3Integration q (w + t • wD) wD h prec prec = (q', false)) t (t + h) q r := by
  intro fuel
  induction fuel with
  | zero => intro k t h q r _ e; simp [sphericalJointIntegration] at e
  | succ fuel ih =>
    intro k t h q r hk e
    rw [sphericalJointIntegration] at e
    dsimp only at e
    split at e
    · rename_i hw
      refine .single ⟨⟨k, hk⟩, so3_no_warning ?_⟩
      have : (SO3Integration q (w + t • wD) wD h prec prec true).2 = false := by simpa using hw
      rw [← Except.ok.inj e, ← this]
    · obtain ⟨q1, e1, e2⟩ := Res.bind_eq_ok.1 e
      have hk' : h / 2 = step / 2 ^ (k + 1) := by rw [hk, pow_succ]; field_simp
      have p1 := ih (k + 1) t (h / 2) q q1 hk' e1
      rw [show w + t • wD + (h / 2) • wD = w + (t + h / 2) • wD by module] at e2
      have p2 := ih (k + 1) (t + h / 2) (h / 2) q1 r hk' e2
      rw [show t + h / 2 + h / 2 = t + h by ring] at p2
      exact p1.append p2

/-- C66: the orientation of a spherical joint is obtained by integrating over pieces of the step, of durations that are the step
divided by powers of two.  Each piece starts at the orientation where the one before stops, with the velocity reached at that time,
and each expansion is used without warning. -/
theorem C66_spherical {fuel : Nat} {a0 a1 a2 b0 b1 b2 q0 q1 q2 q3 step prec : ℝ} {y : List ℝ}
    (h : jointIntegration fuel .Spherical [a0, a1, a2] [b0, b1, b2] step [q0, q1, q2, q3] prec = .ok y) :
    ∃ r : Quat ℝ, y = (if 0 < r.normSq then [r.w / √r.normSq, r.x / √r.normSq, r.y / √r.normSq, r.z / √r.normSq]
        else [r.w, r.x, r.y, r.z]) ∧
      Pieces (fun t h q q' => (∃ k : ℕ, h = step / 2 ^ k) ∧
        SO3Integration q (⟨a0 + t * b0, a1 + t * b1, a2 + t * b2⟩ : Vec3 ℝ) ⟨b0, b1, b2⟩ h prec prec = (q', false)) 0 step ⟨q0, q1, q2, q3⟩ r := by
  rw [spherical_list] at h
  obtain ⟨r, e, h1⟩ := Res.bind_eq_ok.1 h
  refine ⟨r, ?_, ?_⟩
  · rw [← Except.ok.inj h1]
  · have := spherical_pieces ⟨a0, a1, a2⟩ ⟨b0, b1, b2⟩ step prec fuel 0 0 step ⟨q0, q1, q2, q3⟩ r (by simp) (by simpa using e)
    rw [zero_add] at this
    exact this

theorem free_pieces (w v wD vD : Vec3 ℝ) (step prec : ℝ) : ∀ (fuel k : ℕ) (t h : ℝ) (q : Quat ℝ) (x : Vec3 ℝ) (r : Quat ℝ × Vec3 ℝ),
    h = step / 2 ^ k → freeJointIntegration fuel q x (w + t • wD) (v + t • vD) wD vD h prec = .ok r →
    Pieces (fun t h s s' => (∃ k : ℕ, h = step / 2 ^ k) ∧ SO3Integration s.1 (w + t • wD) wD h prec prec = (s'.1, false) ∧
      freeJointIntegration_ s.1 s.2 s'.1 (w + t • wD) (v + t • vD) wD vD h prec = .ok s') t (t + h) (q, x) r := by
  intro fuel
  induction fuel with
  | zero => intro k t h q x r _ e; simp [freeJointIntegration] at e
  | succ fuel ih =>
    intro k t h q x r hk e
    rw [freeJointIntegration] at e
    dsimp only at e
    split at e
    · rename_i hw
      have hw' : (SO3Integration q (w + t • wD) wD h prec prec).2 = false := by simpa using hw
      have hr : r.1 = (SO3Integration q (w + t • wD) wD h prec prec).1 := by
        unfold freeJointIntegration_ at e
        obtain ⟨n, -, e2⟩ := Res.bind_eq_ok.1 e
        exact (congrArg Prod.fst (Except.ok.inj e2)).symm
      refine .single ⟨⟨k, hk⟩, ?_, ?_⟩
      · exact Prod.ext hr.symm hw'
      · rw [hr]; exact e
    · obtain ⟨q1, e1, e2⟩ := Res.bind_eq_ok.1 e
      have hk' : h / 2 = step / 2 ^ (k + 1) := by rw [hk, pow_succ]; field_simp
      have p1 := ih (k + 1) t (h / 2) q x q1 hk' e1
      rw [show w + t • wD + (h / 2) • wD = w + (t + h / 2) • wD by module,
        show v + t • vD + (h / 2) • vD = v + (t + h / 2) • vD by module] at e2
      have p2 := ih (k + 1) (t + h / 2) (h / 2) q1.1 q1.2 r hk' e2
      rw [show t + h / 2 + h / 2 = t + h by ring] at p2
      exact p1.append p2

/-- The sub-steps made to integrate the translation: the orientations `p k` at the start of the sub-steps and `m k` at their
middles, and the resulting translation. -/
structure SubSteps (n : ℕ) (T : ℝ) (q : Quat ℝ) (x : Vec3 ℝ) (w v wD vD : Vec3 ℝ) (q' : Quat ℝ) (x' : Vec3 ℝ) (p m : ℕ → Quat ℝ) : Prop where
  pos : 0 < n
  start : p 0 = q
  stop : p n = q'
  next : ∀ k, k + 1 < n → p (k + 1) = (SO3Integration (p k) (w + (k * (T / n)) • wD) wD (T / n)).1
  mid : ∀ k, k < n → m k = (SO3Integration (p k) (w + (k * (T / n)) • wD) wD (T / n / 2)).1
  sum : x' = x + ∑ k ∈ Finset.range n, (T / n / 6) • ((p k).toRot *ᵥ (v + (k * (T / n)) • vD) +
    (4 : ℝ) • ((m k).toRot *ᵥ (v + (k * (T / n) + T / n / 2) • vD)) + (p (k + 1)).toRot *ᵥ (v + ((k + 1) * (T / n)) • vD))

theorem accum_seq {E : Type} [AddCommGroup E] [Module ℝ E] (f g : ℕ → E) (h : ℝ) (a : E) (m : ℕ) :
    ((6 : ℝ) • a + h • f 0 + ∑ j ∈ Finset.range m, h • ((4 : ℝ) • g j + (2 : ℝ) • f (j + 1))) =
      (6 : ℝ) • a + (6 : ℝ) • ∑ k ∈ Finset.range m, (h / 6) • (f k + (4 : ℝ) • g k + f (k + 1)) + h • f m := by
  induction m with
  | zero => simp
  | succ m ih =>
    rw [Finset.sum_range_succ, ← add_assoc, ih, Finset.sum_range_succ]
    module

theorem free_loop_seq (wD vD : Vec3 ℝ) (h : ℝ) (q : Quat ℝ) (X v w : Vec3 ℝ) (p : ℕ → Quat ℝ) (h0 : p 0 = q)
    (hp : ∀ k, p (k + 1) = (SO3Integration (p k) (w + (k * h) • wD) wD h).1) (n : ℕ) :
    (List.range n).foldl (freeSubStep wD vD h) (q, X, v, w) =
      (p n, X + ∑ j ∈ Finset.range n, h • ((4 : ℝ) • ((SO3Integration (p j) (w + (j * h) • wD) wD (h / 2)).1.toRot *ᵥ
        (v + (j * h + h / 2) • vD)) + (2 : ℝ) • ((p (j + 1)).toRot *ᵥ (v + ((j + 1) * h) • vD))),
        v + (n * h) • vD, w + (n * h) • wD) := by
  induction n with
  | zero => simp [h0]
  | succ m ih =>
    rw [List.range_succ, List.foldl_append, ih, Finset.sum_range_succ]
    simp only [List.foldl_cons, List.foldl_nil, freeSubStep]
    have e3 : v + (m * h) • vD + (h / 2) • vD = v + (m * h + h / 2) • vD := by module
    have e4 : v + (m * h) • vD + h • vD = v + ((m + 1) * h) • vD := by module
    have e5 : w + (m * h) • wD + h • wD = w + ((m + 1) * h) • wD := by module
    rw [e3, e4, e5, ← hp m]
    push_cast
    refine Prod.ext rfl (Prod.ext ?_ rfl)
    simp only [add_assoc]

theorem free_substeps {q qf : Quat ℝ} {x w v wD vD : Vec3 ℝ} {T prec : ℝ} {r : Quat ℝ × Vec3 ℝ} (hT : 0 ≤ T) (hp : 0 < prec)
    (e : freeJointIntegration_ q x qf w v wD vD T prec = .ok r) :
    r.1 = qf ∧ ∃ (n : ℕ) (p m : ℕ → Quat ℝ), SubSteps n T q x w v wD vD qf r.2 p m ∧
      n * (√(max (fourthDerivativeSquaredNormFree v w vD wD)
        (fourthDerivativeSquaredNormFree (v + T • vD) (w + T • wD) vD wD)) * (T / n) ^ 5 / 2880) ≤ prec := by
  obtain ⟨m, hn, hb⟩ := subSteps_bound (Real.sqrt_nonneg (max (fourthDerivativeSquaredNormFree v w vD wD)
        (fourthDerivativeSquaredNormFree (v + T • vD) (w + T • wD) vD wD))) hT hp
  unfold freeJointIntegration_ at e
  dsimp only at e
  rw [hn, Res.bind_ok] at e
  have hm : (((m + 1 : ℕ) : Int) - 1).toNat = m := by omega
  have hm0 : ((m + 1 : ℕ) : ℝ) ≠ 0 := by positivity
  let h : ℝ := T / ((m + 1 : ℕ) : ℝ)
  have hTh : T = (m + 1) * h := by simp only [h]; field_simp; push_cast; ring
  let p : ℕ → Quat ℝ := fun k => Nat.rec q (fun k p => (SO3Integration p (w + (k * h) • wD) wD h).1) k
  rw [hm, Int.cast_natCast, show T / ((m + 1 : ℕ) : ℝ) = h from rfl, free_loop_seq wD vD h q _ v w p rfl (fun _ => rfl)] at e
  dsimp only at e
  obtain rfl := (Except.ok.inj e).symm
  refine ⟨rfl, m + 1, fun k => if k = m + 1 then qf else p k, fun k => (SO3Integration (p k) (w + (k * h) • wD) wD (h / 2)).1, ?_, hb⟩
  refine ⟨by omega, by simp [p], by simp, ?_, ?_, ?_⟩
  · intro k hk
    have h1 : k ≠ m + 1 := by omega
    have h2 : k ≠ m := by omega
    simp only [Nat.add_right_cancel_iff, h1, h2, if_false]
    rfl
  · intro k hk
    have h1 : k ≠ m + 1 := by omega
    simp only [h1, if_false]
    rfl
  · have acc := accum_seq (fun k => (p k).toRot *ᵥ (v + (k * h) • vD))
      (fun k => (SO3Integration (p k) (w + (k * h) • wD) wD (h / 2)).1.toRot *ᵥ (v + (k * h + h / 2) • vD)) h x m
    simp only [Nat.cast_zero, zero_mul, zero_smul, add_zero, Nat.cast_add, Nat.cast_one] at acc
    have hq : (p 0).toRot = q.toRot := rfl
    rw [hq] at acc
    rw [Finset.sum_range_succ]
    have hs : ∀ k ∈ Finset.range m, (T / ((m + 1 : ℕ) : ℝ) / 6) • ((if k = m + 1 then qf else p k).toRot *ᵥ (v + (k * (T / ((m + 1 : ℕ) : ℝ))) • vD) +
        (4 : ℝ) • ((SO3Integration (p k) (w + (k * h) • wD) wD (h / 2)).1.toRot *ᵥ (v + (k * (T / ((m + 1 : ℕ) : ℝ)) + T / ((m + 1 : ℕ) : ℝ) / 2) • vD)) +
        (if k + 1 = m + 1 then qf else p (k + 1)).toRot *ᵥ (v + ((k + 1) * (T / ((m + 1 : ℕ) : ℝ))) • vD)) =
        (h / 6) • ((p k).toRot *ᵥ (v + (k * h) • vD) + (4 : ℝ) • ((SO3Integration (p k) (w + (k * h) • wD) wD (h / 2)).1.toRot *ᵥ
          (v + (k * h + h / 2) • vD)) + (p (k + 1)).toRot *ᵥ (v + ((k + 1) * h) • vD)) := by
      intro k hk
      have hk := Finset.mem_range.1 hk
      have h1 : k ≠ m + 1 := by omega
      have h2 : k ≠ m := by omega
      simp only [Nat.add_right_cancel_iff, h1, h2, if_false]
      rfl
    rw [Finset.sum_congr rfl hs]
    have h1 : m ≠ m + 1 := by omega
    simp only [h1, if_false, if_true]
    show (1 / 6 : ℝ) • ((6 : ℝ) • x + h • q.toRot *ᵥ v + _ + h • _) = _
    rw [acc]
    have e3 : v + (m * h) • vD + (h / 2) • vD = v + (m * h + h / 2) • vD := by module
    have e4 : v + (m * h) • vD + h • vD = v + ((m + 1) * h) • vD := by module
    show (1 / 6 : ℝ) • (_ + h • ((4 : ℝ) • ((SO3Integration (p m) (w + (m * h) • wD) wD (h / 2)).1.toRot *ᵥ (v + (m * h) • vD + (h / 2) • vD)) +
      qf.toRot *ᵥ (v + (m * h) • vD + h • vD))) = x + (_ + (h / 6) • ((p m).toRot *ᵥ (v + (m * h) • vD) +
        (4 : ℝ) • ((SO3Integration (p m) (w + (m * h) • wD) wD (h / 2)).1.toRot *ᵥ (v + (m * h + h / 2) • vD)) +
          qf.toRot *ᵥ (v + ((m + 1) * h) • vD)))
    rw [e3, e4]
    module

theorem Pieces.mono {S : Type} {one two : ℝ → ℝ → S → S → Prop} {t t' : ℝ} {s s' : S} (h : Pieces one t t' s s')
    (hm : ∀ t h s s', one t h s s' → two t h s s') : Pieces two t t' s s' := by
  induction h with
  | nil => exact .nil _ _
  | cons h1 _ ih => exact .cons (hm _ _ _ _ h1) ih

/-- C66: the same for a free joint.  On each piece the translation is integrated by Simpson's rule on equal sub-steps, with the
orientation at each point of the rule, the velocities reached at that time, and at the end of the piece the orientation that the piece
arrives at.  The number of sub-steps keeps the error bound of the rule, for the fourth derivatives at the two ends of the piece, below
the precision. -/
theorem C66_free {fuel : ℕ} {a0 a1 a2 a3 a4 a5 b0 b1 b2 b3 b4 b5 q0 q1 q2 q3 q4 q5 q6 step prec : ℝ} {y : List ℝ}
    (hs : 0 ≤ step) (hp : 0 < prec)
    (h : jointIntegration fuel .Free [a0, a1, a2, a3, a4, a5] [b0, b1, b2, b3, b4, b5] step [q0, q1, q2, q3, q4, q5, q6] prec = .ok y) :
    ∃ r : Quat ℝ × Vec3 ℝ, y = [r.1.w / √r.1.normSq, r.1.x / √r.1.normSq, r.1.y / √r.1.normSq, r.1.z / √r.1.normSq,
        r.2.x, r.2.y, r.2.z] ∧
      Pieces (fun t h s s' =>
        let w : Vec3 ℝ := ⟨a0 + t * b0, a1 + t * b1, a2 + t * b2⟩
        let v : Vec3 ℝ := ⟨a3 + t * b3, a4 + t * b4, a5 + t * b5⟩
        let wD : Vec3 ℝ := ⟨b0, b1, b2⟩
        let vD : Vec3 ℝ := ⟨b3, b4, b5⟩
        (∃ k : ℕ, h = step / 2 ^ k) ∧ SO3Integration s.1 w wD h prec prec = (s'.1, false) ∧
        ∃ (n : ℕ) (p m : ℕ → Quat ℝ), SubSteps n h s.1 s.2 w v wD vD s'.1 s'.2 p m ∧
          n * (√(max (fourthDerivativeSquaredNormFree v w vD wD)
            (fourthDerivativeSquaredNormFree (v + h • vD) (w + h • wD) vD wD)) * (h / n) ^ 5 / 2880) ≤ prec)
        0 step (⟨q0, q1, q2, q3⟩, ⟨q4, q5, q6⟩) r := by
  rw [free_list] at h
  obtain ⟨r, e, h1⟩ := Res.bind_eq_ok.1 h
  refine ⟨r, (Except.ok.inj h1).symm, ?_⟩
  have := free_pieces ⟨a0, a1, a2⟩ ⟨a3, a4, a5⟩ ⟨b0, b1, b2⟩ ⟨b3, b4, b5⟩ step prec fuel 0 0 step ⟨q0, q1, q2, q3⟩
    ⟨q4, q5, q6⟩ r (by simp) (by simpa using e)
  rw [zero_add] at this
  refine this.mono ?_
  rintro t h s s' ⟨⟨k, hk⟩, h2, h3⟩
  obtain ⟨-, n, p, m, h4, h5⟩ := free_substeps (by rw [hk]; positivity) hp h3
  exact ⟨⟨k, hk⟩, h2, n, p, m, h4, h5⟩

/-- The hypotheses are met by every motion: here a spherical and a free joint that turn and accelerate about different axes. -/
example : ∃ fuel y, jointIntegration fuel .Spherical [1, 2, 3] [-1, 0, 4] (1 / 2 : ℝ) [1, 0, 0, 0] (1 / 1000) = .ok y := by
  obtain ⟨y, N, -, h⟩ := C42_terminates .Spherical (a := [1, 2, 3]) (b := [-1, 0, 4]) (x := [1, 0, 0, 0]) rfl rfl
    ⟨rfl, by norm_num [Quat.normSq]⟩ (step := 1 / 2) (prec := 1 / 1000) (by norm_num) (.inl (by norm_num))
  exact ⟨N, y, h N le_rfl⟩

example : ∃ fuel y, jointIntegration fuel .Free [1, 2, 3, 4, 5, 6] [-1, 0, 4, 1, 0, 1] (1 / 2 : ℝ) [1, 0, 0, 0, 7, 8, 9] (1 / 1000) = .ok y := by
  obtain ⟨y, N, -, h⟩ := C42_terminates .Free (a := [1, 2, 3, 4, 5, 6]) (b := [-1, 0, 4, 1, 0, 1]) (x := [1, 0, 0, 0, 7, 8, 9]) rfl rfl
    ⟨rfl, by norm_num [Quat.normSq]⟩ (step := 1 / 2) (prec := 1 / 1000) (by norm_num) (.inl (by norm_num))
  exact ⟨N, y, h N le_rfl⟩

end RBDyn
