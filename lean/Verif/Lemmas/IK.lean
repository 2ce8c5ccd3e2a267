import Verif.Model.IK
import Verif.Lemmas.Jacobian

/-! Lemmas about the update of the inverse kinematics. -/

namespace RBDyn
variable {K : Type} [Scalar K]

theorem ikJoint_acc (lambda : K) (res : List K) (qi : List K) : ∀ (acc : List K) (d : Nat), d + qi.length ≤ res.length →
    qi.foldlM (fun s qv => do return (s.1 ++ [qv + lambda * (← rd res s.2)], s.2 + 1)) (acc, d) =
      (.ok (acc ++ List.zipWith (fun a b => a + lambda * b) qi (res.drop d), d + qi.length) : Res (List K × Nat)) := by
  induction qi with
  | nil => intro acc d _; simp [Res.pure_eq]
  | cons a l ih =>
    intro acc d h
    rw [List.length_cons] at h
    have hd : d < res.length := by omega
    rw [List.foldlM_cons, rd_ok hd, Res.bind_ok, Res.pure_eq, Res.bind_ok, ih _ _ (by omega), List.drop_eq_getElem_cons hd,
      List.zipWith_cons_cons, List.length_cons, List.append_assoc, List.singleton_append, Nat.add_right_comm, Nat.add_assoc]

theorem ikJoint_eq (lambda : K) (res qi : List K) {d : Nat} (h : d + qi.length ≤ res.length) :
    ikJoint lambda res qi d = .ok (List.zipWith (fun a b => a + lambda * b) qi (res.drop d), d + qi.length) := by
  unfold ikJoint
  rw [ikJoint_acc lambda res qi [] d h, List.nil_append]

theorem zipWith_drop_append {α β γ : Type} (f : α → β → γ) (l l' : List α) (r : List β) (h : l.length ≤ r.length) :
    List.zipWith f (l ++ l') r = List.zipWith f l r ++ List.zipWith f l' (r.drop l.length) := by
  induction l generalizing r with
  | nil => simp
  | cons a l ih =>
    cases r with
    | nil => simp at h
    | cons b r => simp [ih r (by simpa using h)]

theorem pathVec_congr {path : List Nat} {q q' : List (List K)} (h : ∀ i ∈ path, q[i]? = q'[i]?) : pathVec path q = pathVec path q' :=
  List.flatMap_congr fun i hi => by rw [h i hi]

/-- The update writes `λ res` on the coordinates of the path and nowhere else. -/
theorem ikUpdate_spec (lambda : K) (res : List K) {path : List Nat} (hn : path.Nodup) : ∀ {q : List (List K)} {d : Nat},
    (∀ i ∈ path, i < q.length) → d + (pathVec path q).length ≤ res.length →
    ∃ q', ikUpdate lambda res path (q, d) = .ok (q', d + (pathVec path q).length) ∧ q'.map List.length = q.map List.length ∧
      (∀ i, i ∉ path → q'[i]? = q[i]?) ∧
      pathVec path q' = List.zipWith (fun a b => a + lambda * b) (pathVec path q) (res.drop d) := by
  induction path with
  | nil => intro q d _ _; exact ⟨q, by simp [ikUpdate, pathVec, Res.pure_eq], rfl, fun _ _ => rfl, by simp [pathVec]⟩
  | cons i path ih =>
    intro q d hl hd
    obtain ⟨hi, hn⟩ := List.nodup_cons.1 hn
    have hiq : i < q.length := hl i (by simp)
    have ec : ∀ v : List (List K), pathVec (i :: path) v = (v[i]?).getD [] ++ pathVec path v := fun v => rfl
    have hx : (q[i]?).getD [] = q[i] := by simp [hiq]
    rw [ec, hx, List.length_append] at hd
    have e1 : ikJoint lambda res q[i] d = _ := ikJoint_eq lambda res q[i] (by omega)
    set x := List.zipWith (fun a b => a + lambda * b) q[i] (res.drop d) with hxd
    have hxl : x.length = q[i].length := by
      rw [hxd, List.length_zipWith, List.length_drop]; omega
    have hpv : pathVec path (q.set i x) = pathVec path q := pathVec_congr fun k hk => by
      rw [List.getElem?_set_ne]; rintro rfl; exact hi hk
    obtain ⟨q', h1, h2, h3, h4⟩ := ih hn (q := q.set i x) (d := d + q[i].length)
      (fun k hk => by rw [List.length_set]; exact hl k (by simp [hk])) (by rw [hpv]; omega)
    have hq'i : (q'[i]?).getD [] = x := by
      rw [h3 i hi, List.getElem?_set_self hiq]; rfl
    refine ⟨q', ?_, ?_, ?_, ?_⟩
    · unfold ikUpdate at h1 ⊢
      rw [List.foldlM_cons, rd_ok hiq, Res.bind_ok]
      dsimp only
      rw [e1, Res.bind_ok]
      dsimp only
      rw [wr_ok hiq, Res.bind_ok, Res.pure_eq, Res.bind_ok, h1, hpv, ec, hx, List.length_append, Nat.add_assoc]
    · rw [h2, List.map_set, hxl]
      refine List.ext_getElem? fun k => ?_
      by_cases hk : k = i
      · subst hk; rw [List.getElem?_set_self (by simpa using hiq)]; simp [hiq]
      · rw [List.getElem?_set_ne (Ne.symm hk)]
    · intro k hk
      rw [h3 k (fun h => hk (by simp [h])), List.getElem?_set_ne (by rintro rfl; simp at hk)]
    · rw [ec q', ec q, hq'i, h4, hpv, hx, zipWith_drop_append _ _ _ _ (by rw [List.length_drop]; omega), List.drop_drop]

end RBDyn
