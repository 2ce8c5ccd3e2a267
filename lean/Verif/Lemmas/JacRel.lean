import Verif.Lemmas.JacDeriv
import Mathlib.Data.List.TakeWhile

/-! The relative constructor of `Jacobian`. -/

namespace RBDyn
variable {K : Type} [Scalar K] {mb : MultiBody K}
open scoped Mat3

section upTo
variable {par : Nat → Option Nat}

/-- The bodies from `i` up to, but not including, `c`. -/
def upTo (par : Nat → Option Nat) (c i : Nat) : List Nat := (pathUp par i).takeWhile (· ≠ c)

theorem upTo_self (c : Nat) : upTo par c c = [] := by
  obtain ⟨l, hl⟩ := pathUp_head (par := par) c
  simp [upTo, hl]

theorem upTo_some {c i k : Nat} (h : i ≠ c) (hp : par i = some k) (hk : k < i) : upTo par c i = i :: upTo par c k := by
  rw [upTo, pathUp_some hp hk, List.takeWhile_cons, if_pos (by simpa using h)]
  rfl

theorem pathUp_split {c i : Nat} (hpar : ∀ i j, par i = some j → j < i) (h : c ∈ pathUp par i) : pathUp par i = upTo par c i ++ pathUp par c := by
  induction i using Nat.strong_induction_on with
  | _ i ih =>
    by_cases hc : i = c
    · subst hc; rw [upTo_self]; rfl
    · cases hp : par i with
      | none => rw [mem_pathUp_none hp] at h; exact absurd h.symm hc
      | some k =>
        have hk := hpar i k hp
        rw [mem_pathUp_some hp hk] at h
        rw [upTo_some hc hp hk, pathUp_some hp hk, List.cons_append, ← ih k hk (h.resolve_left (Ne.symm hc))]

theorem upTo_notin {c i : Nat} (h : c ∉ pathUp par i) : upTo par c i = pathUp par i := by
  unfold upTo
  refine List.takeWhile_eq_self_iff.2 fun x hx => ?_
  simp only [ne_eq, decide_eq_true_eq]
  rintro rfl
  exact h hx

theorem mem_upTo {c i x : Nat} (h : x ∈ upTo par c i) : x ∈ pathUp par i := List.takeWhile_subset _ h

end upTo

/-! ### First loop -/

theorem pathLoopRef_end (mb : MultiBody K) (R : Nat) (fuel : Nat) (s : List Nat × List K × Nat) :
    pathLoopRef mb R (fuel + 1) (-1) s = .ok (-1, s) := by
  obtain ⟨a, b, c⟩ := s
  rw [pathLoopRef, if_neg (by simp)]; rfl

theorem pathLoopRef_eq (wf : mb.WF) (R : Nat) : ∀ (fuel i : Nat), i < mb.bodies.length → i + 2 ≤ fuel →
    ∀ (path : List Nat) (sign : List K) (dof : Nat),
    pathLoopRef mb R fuel i (path, sign, dof) = .ok (if R ∈ pathUp mb.par i then (R : Int) else -1, (upTo mb.par R i).reverse ++ path,
      ((upTo mb.par R i).reverse.map fun _ => (1 : K)) ++ sign, dof + ((upTo mb.par R i).map mb.dofAt).sum)
  | 0, i, hi, hf, path, sign, dof => by omega
  | fuel + 1, i, hi, hf, path, sign, dof => by
    obtain ⟨j, hj, hd⟩ := wf.rdI_joint hi
    rw [pathLoopRef, if_pos (by omega)]
    by_cases hR : i = R
    · subst hR
      rw [if_pos rfl, if_pos (self_mem_pathUp _ i), upTo_self]
      simp
    · rw [if_neg (by omega)]
      obtain ⟨p, hp, ⟨rfl, hpar⟩ | ⟨k, rfl, hpar, hk⟩⟩ := wf.rdI_parent hi
      · rw [toIdx_ofNat, Res.bind_ok, hj, Res.bind_ok, hp, Res.bind_ok]
        obtain ⟨f, rfl⟩ : ∃ f, fuel = f + 1 := ⟨fuel - 1, by omega⟩
        have hn : R ∉ pathUp mb.par i := by rw [mem_pathUp_none hpar]; exact Ne.symm hR
        rw [pathLoopRef_end, upTo_notin hn, pathUp_none hpar, if_neg (by simpa using Ne.symm hR)]
        simp [hd]
      · rw [toIdx_ofNat, Res.bind_ok, hj, Res.bind_ok, hp, Res.bind_ok,
          pathLoopRef_eq wf R fuel k (by omega) (by omega), upTo_some hR hpar hk]
        have : R ∈ pathUp mb.par i ↔ R ∈ pathUp mb.par k := by
          rw [mem_pathUp_some hpar hk]; exact or_iff_right (Ne.symm hR)
        simp only [this]
        simp [hd, Nat.add_assoc]

/-! ### Second loop -/

theorem insertIdx_append {α : Type} (A P : List α) (x : α) : (A ++ P).insertIdx A.length x = A ++ x :: P := by
  induction A with
  | nil => rfl
  | cons a A ih => rw [List.cons_append, List.length_cons, List.insertIdx_succ_cons, ih]; rfl

theorem contains_map_ofNat (P : List Nat) (k : Nat) : ((P.map Int.ofNat).contains (k : Int)) = decide (k ∈ P) := by
  rw [Bool.eq_iff_iff]
  simp

/-- `c` is the first body from `i` upwards that lies in `P`. -/
theorem refLoop_eq (wf : mb.WF) (P : List Nat) {c : Nat} (hc : c ∈ P) : ∀ (fuel i : Nat), i < mb.bodies.length → i + 1 ≤ fuel → i ∉ P →
    c ∈ pathUp mb.par i → (∀ x ∈ upTo mb.par c i, x ∉ P) → ∀ (A : List Nat) (sign : List K) (dof : Nat),
    refLoop mb fuel i A.length (A ++ P, sign, dof) = .ok ((c : Int), (A ++ upTo mb.par c i).length, A ++ upTo mb.par c i ++ P,
      ((upTo mb.par c i).map fun _ => (-1 : K)) ++ sign, dof + ((upTo mb.par c i).map mb.dofAt).sum)
  | 0, i, hi, hf, _, _, _, A, sign, dof => by omega
  | fuel + 1, i, hi, hf, hiP, hci, hU, A, sign, dof => by
    obtain ⟨j, hj, hd⟩ := wf.rdI_joint hi
    have hne : i ≠ c := by rintro rfl; exact hiP hc
    obtain ⟨p, hp, ⟨rfl, hpar⟩ | ⟨k, rfl, hpar, hk⟩⟩ := wf.rdI_parent hi
    · rw [mem_pathUp_none hpar] at hci
      exact absurd hci.symm hne
    · have hci' := ((mem_pathUp_some hpar hk).1 hci).resolve_left (Ne.symm hne)
      have hup := upTo_some (par := mb.par) hne hpar hk
      have hdrop : (A ++ i :: P).drop (A.length + 1) = P := by
        rw [← List.drop_drop, List.drop_left]; rfl
      rw [refLoop, toIdx_ofNat, Res.bind_ok, hj, Res.bind_ok, hp, Res.bind_ok, insertIdx_append]
      dsimp only
      rw [hdrop, contains_map_ofNat]
      by_cases hkP : k ∈ P
      · have : k = c := by
          by_contra hkc
          obtain ⟨l, hl⟩ := pathUp_head (par := mb.par) k
          have : k ∈ upTo mb.par c i := by
            rw [hup, List.mem_cons]
            right
            rw [upTo, hl, List.takeWhile_cons, if_pos (by simpa using hkc)]
            exact List.mem_cons_self
          exact hU k this hkP
        subst this
        rw [if_pos (by simpa using hkP), hup, upTo_self]
        simp [hd]
      · rw [if_neg (by simpa using hkP)]
        have := refLoop_eq wf P hc fuel k (by omega) (by omega) hkP hci' (fun x hx => hU x (by rw [hup]; exact List.mem_cons_of_mem _ hx))
          (A ++ [i]) (-1 :: sign) (dof + j.dof)
        rw [List.append_assoc, List.singleton_append, List.length_append, List.length_singleton] at this
        rw [this, hup]
        simp only [List.append_assoc, List.nil_append, List.map_cons, List.cons_append, List.sum_cons, hd, Nat.add_assoc]
        have hcomm : ((upTo mb.par c k).map fun _ => (-1 : K)) ++ -1 :: sign = -1 :: (((upTo mb.par c k).map fun _ => (-1 : K)) ++ sign) := by
          induction upTo mb.par c k with
          | nil => rfl
          | cons x l ih => rw [List.map_cons, List.cons_append, ih]; rfl
        rw [hcomm]

theorem findCommon_eq (path : List Nat) (c : Nat) (m : Nat) (hm : path[m]? = some c) : ∀ (fuel k : Nat), k < m → m - k ≤ fuel →
    (∀ x, k < x → x < m → path[x]? ≠ some c) → findCommon path c fuel k = .ok m
  | 0, k, h1, h2, _ => by omega
  | fuel + 1, k, h1, h2, h3 => by
    have hlt := (List.getElem?_eq_some_iff.1 hm).1
    rw [findCommon]
    by_cases hk : k + 1 = m
    · subst hk
      rw [rd_of_getElem? hm, Res.bind_ok, if_neg (by simp)]; rfl
    · have hlt' : k + 1 < path.length := by omega
      rw [rd_ok hlt', Res.bind_ok, if_pos]
      · exact findCommon_eq path c m hm fuel (k + 1) (by omega) (by omega) (fun x hx hx' => h3 x (by omega) hx')
      · have := h3 (k + 1) (by omega) (by omega)
        rw [List.getElem?_eq_getElem hlt'] at this
        intro h
        exact this (congrArg some (by exact_mod_cast h))

/-! ### Signed sums -/

theorem sum_sign {M : Type} [AddCommGroup M] [Module K M] (f : Nat → M) : ∀ (path : List Nat) (sign : List K), sign.length = path.length →
    ∑ x ∈ Finset.range path.length, sign.getD x 0 • f (path.getD x 0) = (List.zipWith (fun s i => s • f i) sign path).sum
  | [], [], _ => by simp
  | i :: path, s :: sign, h => by
    rw [List.length_cons, Finset.sum_range_succ', add_comm]
    have := sum_sign f path sign (by simpa using h)
    simp only [List.getD_cons_zero, List.getD_cons_succ, this, List.zipWith_cons_cons, List.sum_cons]

theorem zipWith_map_const {M : Type} [AddCommGroup M] [Module K M] (f : Nat → M) (s : K) (l : List Nat) :
    (List.zipWith (fun s i => s • f i) (l.map fun _ => s) l).sum = s • (l.map f).sum := by
  induction l with
  | nil => simp
  | cons i l ih => rw [List.map_cons, List.zipWith_cons_cons, List.sum_cons, ih, List.map_cons, List.sum_cons, smul_add]

theorem back_append {J : Jac K} {l : List Nat} {N : Nat} (h : J.path = l ++ [N]) : J.back = .ok N := by
  unfold Jac.back
  rw [h, if_neg (by simp)]
  apply rd_of_getElem?
  simp

theorem upTo_head {par : Nat → Option Nat} {N R : Nat} (h : N ≠ R) : ∃ l, upTo par R N = N :: l := by
  obtain ⟨l, hl⟩ := pathUp_head (par := par) N
  exact ⟨l.takeWhile (· ≠ R), by rw [upTo, hl, List.takeWhile_cons, if_pos (by simpa using h)]⟩

/-- The reference body lies between the root and the body. -/
theorem Jac.mkRel_ancestor (wf : mb.WF) (junk : Nat → MotionVec K) {name rname : String} {N R : Nat}
    (hN : mb.sBodyIndexByName name = .ok (N : Int)) (hR : mb.sBodyIndexByName rname = .ok (R : Int)) (hNl : N < mb.bodies.length)
    (hRl : R < mb.bodies.length) (hne : N ≠ R) (hup : R ∈ pathUp mb.par N) (p : Vec3 K) :
    ∃ J, Jac.mkRel junk mb name rname p = .ok J ∧ J.Rel mb N R p ∧ J.path = (upTo mb.par R N).reverse ∧
      J.sign = (upTo mb.par R N).reverse.map fun _ => 1 := by
  unfold Jac.mkRel
  rw [hN, Res.bind_ok, hR, Res.bind_ok, pathLoopRef_eq wf R _ N hNl (by omega) [] [] 0, Res.bind_ok, if_pos hup]
  dsimp only
  rw [if_neg (by simp), Res.pure_eq, Res.bind_ok]
  refine ⟨_, rfl, ?_, by simp, by simp⟩
  obtain ⟨l, hl⟩ := upTo_head (par := mb.par) hne
  exact
    { path := by
        intro i hi
        simp only [List.append_nil, List.mem_reverse] at hi
        exact wf.mem_pathUp_lt hNl (mem_upTo hi)
      sign := by simp
      jac := by simp
      jacDot := by simp
      isBody := hNl
      isRef := hRl
      back := back_append (l := l.reverse) (by simp [hl])
      sum := by
        intro f _
        dsimp only
        simp only [List.append_nil]
        rw [sum_sign f _ _ (by simp), zipWith_map_const, one_smul, ← wf.sum_pathUp f hNl, ← wf.sum_pathUp f hRl,
          pathUp_split wf.par_lt hup, List.map_append, List.sum_append, add_sub_cancel_right, List.map_reverse, List.sum_reverse]
      point := rfl
      body := rfl
      ref := rfl }

theorem upTo_disjoint (wf : mb.WF) {N R c : Nat} (h : mb.IsCommon N R c) : ∀ x ∈ upTo mb.par c R, x ∉ (pathUp mb.par N).reverse := by
  intro x hx hx'
  rw [List.mem_reverse] at hx'
  have h1 := h.deepest x hx' (mem_upTo hx)
  have hnd := pathUp_nodup (par := mb.par) R
  rw [pathUp_split wf.par_lt h.right, List.nodup_append] at hnd
  exact hnd.2.2 x hx x h1 rfl

/-- State after the second loop, for bodies of different branches. -/
theorem mkRel_loops (wf : mb.WF) {N R c : Nat} (hNl : N < mb.bodies.length) (hRl : R < mb.bodies.length) (hR : R ∉ pathUp mb.par N)
    (h : mb.IsCommon N R c) :
    pathLoopRef mb R (mb.bodies.length + 1) N (([], [], 0) : List Nat × List K × Nat) = .ok (-1, (pathUp mb.par N).reverse,
      (pathUp mb.par N).reverse.map fun _ => 1, ((pathUp mb.par N).map mb.dofAt).sum) ∧
    refLoop mb (mb.bodies.length + 1) R 0 ((pathUp mb.par N).reverse, (pathUp mb.par N).reverse.map fun _ => (1 : K),
      ((pathUp mb.par N).map mb.dofAt).sum) = .ok ((c : Int), (upTo mb.par c R).length, upTo mb.par c R ++ (pathUp mb.par N).reverse,
      ((upTo mb.par c R).map fun _ => -1) ++ (pathUp mb.par N).reverse.map fun _ => 1,
      ((pathUp mb.par N).map mb.dofAt).sum + ((upTo mb.par c R).map mb.dofAt).sum) := by
  constructor
  · rw [pathLoopRef_eq wf R _ N hNl (by omega) [] [] 0, if_neg hR, upTo_notin hR]
    simp
  · have := refLoop_eq wf (pathUp mb.par N).reverse (c := c) (by simpa using h.left) (mb.bodies.length + 1) R hRl (by omega)
      (by simpa using hR) h.right (upTo_disjoint wf h) [] ((pathUp mb.par N).reverse.map fun _ => (1 : K)) ((pathUp mb.par N).map mb.dofAt).sum
    simpa using this

/-- The bodies are in different branches, and their deepest common ancestor is not the root. -/
theorem Jac.mkRel_branch (wf : mb.WF) (junk : Nat → MotionVec K) {name rname : String} {N R c : Nat}
    (hN : mb.sBodyIndexByName name = .ok (N : Int)) (hR : mb.sBodyIndexByName rname = .ok (R : Int)) (hNl : N < mb.bodies.length)
    (hRl : R < mb.bodies.length) (h1 : R ∉ pathUp mb.par N) (h2 : N ∉ pathUp mb.par R) (hc : mb.IsCommon N R c)
    {k : Nat} (hk : mb.par c = some k) (p : Vec3 K) :
    ∃ J, Jac.mkRel junk mb name rname p = .ok J ∧ J.Rel mb N R p ∧ J.path = upTo mb.par c R ++ (upTo mb.par c N).reverse ∧
      J.sign = ((upTo mb.par c R).map fun _ => -1) ++ (upTo mb.par c N).reverse.map fun _ => 1 := by
  obtain ⟨e1, e2⟩ := mkRel_loops wf hNl hRl h1 hc
  have hkc := wf.par_lt c k hk
  have hNc : N ≠ c := by rintro rfl; exact h2 hc.right
  have hs := pathUp_split wf.par_lt hc.left
  obtain ⟨lk, hlk⟩ := pathUp_head (par := mb.par) k
  have hpc : pathUp mb.par c = c :: pathUp mb.par k := pathUp_some hk hkc
  obtain ⟨l, hl⟩ := upTo_head (par := mb.par) hNc
  set U := upTo mb.par c R with hU
  set D := upTo mb.par c N with hD
  have hcl : ∀ x ∈ pathUp mb.par c, x < mb.bodies.length := fun x hx => wf.mem_pathUp_lt hNl (pathUp_trans hc.left hx)
  -- the position of the common ancestor
  have hpath : (pathUp mb.par N).reverse = (pathUp mb.par k).reverse ++ c :: D.reverse := by
    rw [hs, hpc, List.reverse_append, List.reverse_cons, List.append_assoc, List.singleton_append]
  set m := U.length + (pathUp mb.par k).length with hm
  have hfind : findCommon (U ++ (pathUp mb.par N).reverse) c ((U ++ (pathUp mb.par N).reverse).length + 1) U.length = .ok m := by
    apply findCommon_eq
    · rw [hpath, List.getElem?_append_right (by omega), List.getElem?_append_right (by rw [List.length_reverse]; omega)]
      simp [hm]
    · rw [hm, hlk, List.length_cons]; omega
    · rw [hpath]
      simp only [List.length_append, List.length_reverse, List.length_cons]
      omega
    · intro x hx hxm
      rw [hpath, List.getElem?_append_right (by omega), List.getElem?_append_left (by rw [List.length_reverse]; omega)]
      intro hh
      have : c ∈ pathUp mb.par k := List.mem_reverse.1 (List.mem_of_getElem? hh)
      have := le_of_mem_pathUp this
      omega
  have htake : ∀ {α : Type} (A B C D : List α), A.length = U.length → B.length = (pathUp mb.par k).length → C.length = 1 →
      eraseRange (A ++ (B ++ (C ++ D))) U.length (m + 1) = A ++ D ∧
      ((A ++ (B ++ (C ++ D))).drop U.length).take (m + 1 - U.length) = B ++ C := by
    intro α A B C D hA hB hC
    unfold eraseRange
    constructor
    · rw [List.take_left' hA]
      congr 1
      rw [← List.append_assoc, ← List.append_assoc]
      exact List.drop_left' (by simp only [List.length_append]; omega)
    · rw [List.drop_left' hA, ← List.append_assoc]
      exact List.take_left' (by simp only [List.length_append]; omega)
  have hdel : ∀ (l : List Nat), (∀ x ∈ l, x < mb.bodies.length) → ∀ n : Nat,
      l.foldlM (fun (s i : Nat) => do return s + (← mb.joint (i : Int)).dof) n = .ok (n + (l.map mb.dofAt).sum) := by
    intro l
    induction l with
    | nil => intro _ n; rfl
    | cons i l ih =>
      intro hl n
      obtain ⟨j, hj, hd⟩ := wf.rdI_joint (hl i (by simp))
      rw [List.foldlM_cons, hj]
      simp only [Res.bind_ok, Res.pure_eq]
      have := ih (fun x hx => hl x (by simp [hx])) (n + j.dof)
      simp only [Res.pure_eq] at this
      rw [this, hd, List.map_cons, List.sum_cons, Nat.add_assoc]
  have t1 := htake U (pathUp mb.par k).reverse [c] D.reverse rfl (by simp) rfl
  have t2 := htake (U.map fun _ => (-1 : K)) ((pathUp mb.par k).reverse.map fun _ => 1) [1] (D.reverse.map fun _ => 1) (by simp) (by simp) rfl
  have d1 : (((pathUp mb.par k).reverse ++ [c]).map mb.dofAt).sum = ((pathUp mb.par c).map mb.dofAt).sum := by
    rw [hpc, ← List.reverse_cons, List.map_reverse, List.sum_reverse]
  have d2 : ((pathUp mb.par N).map mb.dofAt).sum = (D.map mb.dofAt).sum + ((pathUp mb.par c).map mb.dofAt).sum := by
    rw [hs, List.map_append, List.sum_append]
  have hbranch : Jac.mkRel junk mb name rname p = .ok ⟨U ++ D.reverse, (U.map fun _ => -1) ++ D.reverse.map fun _ => 1, .ofTrans p,
      (List.range ((U ++ D.reverse).map mb.dofAt).sum).map junk, (List.range ((U ++ D.reverse).map mb.dofAt).sum).map junk, N, R⟩ := by
    unfold Jac.mkRel
    rw [hN, Res.bind_ok, hR, Res.bind_ok, e1, Res.bind_ok]
    dsimp only
    rw [if_pos (by omega), e2, Res.bind_ok]
    dsimp only
    rw [if_pos (by omega), hfind, Res.bind_ok]
    have hp2 : (pathUp mb.par N).reverse.map (fun _ => (1 : K)) =
        ((pathUp mb.par k).reverse.map fun _ => 1) ++ ([1] ++ D.reverse.map fun _ => 1) := by rw [hpath]; simp
    rw [hp2, hpath]
    rw [List.singleton_append] at t1
    rw [t1.1, t1.2, t2.1, hdel _ (by
      intro x hx
      rw [List.mem_append, List.mem_reverse, List.mem_singleton] at hx
      apply hcl
      rw [hpc, List.mem_cons]
      exact hx.symm), Res.bind_ok, Res.pure_eq, Res.bind_ok, d1, d2]
    have : (D.map mb.dofAt).sum + ((pathUp mb.par c).map mb.dofAt).sum + (U.map mb.dofAt).sum - (0 + ((pathUp mb.par c).map mb.dofAt).sum) =
        ((U ++ D.reverse).map mb.dofAt).sum := by
      rw [List.map_append, List.sum_append, List.map_reverse, List.sum_reverse]; omega
    rw [this]
    rfl
  refine ⟨_, hbranch, ?_, rfl, rfl⟩
  exact
    { path := by
        intro i hi
        simp only [List.mem_append, List.mem_reverse] at hi
        rcases hi with hi | hi
        · exact wf.mem_pathUp_lt hRl (mem_upTo hi)
        · exact wf.mem_pathUp_lt hNl (mem_upTo hi)
      sign := by simp
      jac := by simp
      jacDot := by simp
      isBody := hNl
      isRef := hRl
      back := back_append (l := U ++ l.reverse) (by simp [hl])
      sum := by
        intro f _
        dsimp only
        rw [sum_sign f _ _ (by simp), List.zipWith_append (by simp), List.sum_append, zipWith_map_const, zipWith_map_const, one_smul,
          ← wf.sum_pathUp f hNl, ← wf.sum_pathUp f hRl, hs, pathUp_split wf.par_lt hc.right]
        simp only [List.map_append, List.sum_append, List.map_reverse, List.sum_reverse, neg_smul, one_smul]
        rw [← hU]
        abel
      point := rfl
      body := rfl
      ref := rfl }

/-- The bodies are in different branches, their deepest common ancestor is body 0, and the root joint has no degree of freedom. -/
theorem Jac.mkRel_root (wf : mb.WF) (junk : Nat → MotionVec K) {name rname : String} {N R : Nat}
    (hN : mb.sBodyIndexByName name = .ok (N : Int)) (hR : mb.sBodyIndexByName rname = .ok (R : Int)) (hNl : N < mb.bodies.length)
    (hRl : R < mb.bodies.length) (h1 : R ∉ pathUp mb.par N) (h2 : N ∉ pathUp mb.par R) (hc : mb.IsCommon N R 0)
    (h0 : mb.dofAt 0 = 0) (p : Vec3 K) :
    ∃ J, Jac.mkRel junk mb name rname p = .ok J ∧ J.Rel mb N R p := by
  obtain ⟨e1, e2⟩ := mkRel_loops wf hNl hRl h1 hc
  have hp0 : mb.par 0 = none := by
    cases h : mb.par 0 with
    | none => rfl
    | some k => exact absurd (wf.par_lt 0 k h) (by omega)
  have hNc : N ≠ 0 := by rintro rfl; exact h2 hc.right
  have hs := pathUp_split wf.par_lt hc.left
  rw [pathUp_none hp0] at hs
  obtain ⟨l, hl⟩ := upTo_head (par := mb.par) hNc
  set U := upTo mb.par 0 R with hU
  set D := upTo mb.par 0 N with hD
  have hbranch : Jac.mkRel junk mb name rname p = .ok ⟨U ++ (pathUp mb.par N).reverse,
      (U.map fun _ => -1) ++ (pathUp mb.par N).reverse.map fun _ => 1, .ofTrans p,
      (List.range ((U ++ (pathUp mb.par N).reverse).map mb.dofAt).sum).map junk,
      (List.range ((U ++ (pathUp mb.par N).reverse).map mb.dofAt).sum).map junk, N, R⟩ := by
    unfold Jac.mkRel
    rw [hN, Res.bind_ok, hR, Res.bind_ok, e1, Res.bind_ok]
    dsimp only
    rw [if_pos (by omega), e2, Res.bind_ok]
    dsimp only
    rw [if_neg (by simp), Res.pure_eq, Res.bind_ok]
    have : ((pathUp mb.par N).map mb.dofAt).sum + (U.map mb.dofAt).sum = ((U ++ (pathUp mb.par N).reverse).map mb.dofAt).sum := by
      rw [List.map_append, List.sum_append, List.map_reverse, List.sum_reverse, Nat.add_comm]
    rw [this]
    rfl
  refine ⟨_, hbranch, ?_⟩
  exact
    { path := by
        intro i hi
        simp only [List.mem_append, List.mem_reverse] at hi
        rcases hi with hi | hi
        · exact wf.mem_pathUp_lt hRl (mem_upTo hi)
        · exact wf.mem_pathUp_lt hNl hi
      sign := by simp
      jac := by simp
      jacDot := by simp
      isBody := hNl
      isRef := hRl
      back := back_append (l := U ++ [0] ++ l.reverse) (by simp [hs, hl])
      sum := by
        intro f hf
        dsimp only
        rw [sum_sign f _ _ (by simp), List.zipWith_append (by simp), List.sum_append, zipWith_map_const, zipWith_map_const, one_smul,
          ← wf.sum_pathUp f hNl, ← wf.sum_pathUp f hRl, pathUp_split wf.par_lt hc.right, pathUp_none hp0]
        simp only [List.map_append, List.sum_append, List.map_reverse, List.sum_reverse, neg_smul, one_smul, List.map_cons, List.map_nil,
          List.sum_cons, List.sum_nil, hf 0 h0]
        rw [← hU]
        abel
      point := rfl
      body := rfl
      ref := rfl }

/-- All cases in which the relative constructor does what it should. -/
theorem Jac.mkRel_of (wf : mb.WF) (junk : Nat → MotionVec K) {name rname : String} {N R : Nat}
    (hN : mb.sBodyIndexByName name = .ok (N : Int)) (hR : mb.sBodyIndexByName rname = .ok (R : Int)) (hNl : N < mb.bodies.length)
    (hRl : R < mb.bodies.length) (h : mb.RelOK N R) (p : Vec3 K) : ∃ J, Jac.mkRel junk mb name rname p = .ok J ∧ J.Rel mb N R p := by
  by_cases h1 : R ∈ pathUp mb.par N
  · obtain ⟨J, e, hJ, -⟩ := Jac.mkRel_ancestor wf junk hN hR hNl hRl (by rintro rfl; exact h.1 h1) h1 p
    exact ⟨J, e, hJ⟩
  · obtain ⟨c, hc, ⟨k, hk⟩ | ⟨rfl, h0⟩⟩ := h.2.resolve_left h1
    · obtain ⟨J, e, hJ, -⟩ := Jac.mkRel_branch wf junk hN hR hNl hRl h1 h.1 hc hk p
      exact ⟨J, e, hJ⟩
    · exact Jac.mkRel_root wf junk hN hR hNl hRl h1 h.1 hc h0 p

section apply
variable {q : List (List K)} {J : Jac K} {N R : Nat} {p : Vec3 K}

theorem MultiBody.jointMotion_dofless (wf : mb.WF) (v : List (List K)) {k : Nat} (h : mb.dofAt k = 0) : mb.jointMotion v k = 0 := by
  unfold MultiBody.jointMotion applyCols
  have : mb.SAt k = [] := by
    by_cases hk : k < mb.bodies.length
    · exact List.eq_nil_of_length_eq_zero ((wf.SAt_length hk).trans h)
    · unfold MultiBody.SAt
      rw [List.getElem?_eq_none (by rw [wf.njoints]; omega)]
      rfl
  rw [this]
  simp

theorem Jac.Rel.apply (wf : mb.WF) (hr : mb.Rigid) (hq : ValidQ mb q) (h : J.Rel mb N R p) {v : List (List K)} (hv : SizedDof mb v)
    (X0p : PTransform K) : applyCols (mb.jacCols q X0p J.path J.sign) (pathVec J.path v) =
      (X0p * (mb.posAt q N).inv).mulMotion (mb.velAt q v N) - (X0p * (mb.posAt q R).inv).mulMotion (mb.velAt q v R) := by
  rw [jacCols_apply wf hv q X0p J.sign h.path,
    h.sum (fun k => (X0p * (mb.posAt q k).inv).mulMotion (mb.jointMotion v k)) (fun k hk => by
      rw [mb.jointMotion_dofless wf v hk, PTransform.mulMotion_zero]),
    mb.sum_transport hr hq, mb.sum_transport hr hq]
  rfl

theorem rotCols_apply (E : Mat3 K) (S : List (MotionVec K)) (a : List K) :
    applyCols (rotCols E S) a = (PTransform.ofRot E).mulMotion (applyCols S a) := by
  rw [applyCols_eq_sum _ a S.length (by simp [rotCols]), applyCols_eq_sum S a S.length rfl, PTransform.mulMotion_sum]
  refine Finset.sum_congr rfl fun c hc => ?_
  rw [Finset.mem_range] at hc
  rw [PTransform.mulMotion_smul]
  congr 1
  unfold rotCols
  rw [List.getD_eq_getElem?_getD, List.getElem?_map, List.getD_eq_getElem?_getD, List.getElem?_eq_getElem hc]
  simp [PTransform.mulMotion, PTransform.ofRot]

theorem Jac.Rel.jacobian_eq (wf : mb.WF) {mbc : MBC K} (hv : mbc.PosReady mb) (h : J.Rel mb N R p) :
    J.jacobian mb mbc = .ok { J with jac := ((if 0 < R then rotCols (mb.posAt mbc.q R).E else id)
      (mb.jacCols mbc.q (.ofTrans (PTransform.ofTrans p * mb.posAt mbc.q N).r) J.path J.sign)) } := by
  unfold Jac.jacobian Jac.toRef
  simp only [h.back, Res.bind_ok, hv.rd_pos h.isBody, jacobianFill_eq wf hv _ h.path h.sign h.jac, h.ref, h.point, rdI_ofNat,
    hv.rd_pos h.isRef, Res.pure_eq]
  by_cases hR : 0 < R
  · rw [if_pos (by exact_mod_cast hR), if_pos hR]; rfl
  · rw [if_neg (by exact_mod_cast hR), if_neg hR]; rfl

theorem Jac.Rel.bodyJacobian_eq (wf : mb.WF) {mbc : MBC K} (hv : mbc.PosReady mb) (h : J.Rel mb N R p) :
    J.bodyJacobian mb mbc = .ok { J with jac := mb.jacCols mbc.q (PTransform.ofTrans p * mb.posAt mbc.q N) J.path J.sign } := by
  unfold Jac.bodyJacobian
  simp only [h.back, Res.bind_ok, hv.rd_pos h.isBody, jacobianFill_eq wf hv _ h.path h.sign h.jac, Res.pure_eq, h.point]

/-- A point of the world seen as a point of a body. -/
theorem ofTrans_world (W : PTransform K) (x : Vec3 K) :
    PTransform.ofTrans x * W.inv = ⟨W.E.tr, W.E *ᵥ (x - W.r)⟩ := by
  ext1
  · simp [PTransform.ofTrans, PTransform.inv]
  · simp only [PTransform.mul_r, PTransform.ofTrans, PTransform.inv, Mat3.tr_tr, Mat3.mulVec_sub]
    abel

end apply

end RBDyn
