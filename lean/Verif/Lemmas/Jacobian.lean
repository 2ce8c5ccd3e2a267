import Verif.Spec.Jacobian
import Verif.Lemmas.Mass
import Verif.Lemmas.Kinematics

/-! Jacobians: closed forms of the loops. -/

namespace RBDyn
variable {K : Type} [Scalar K] {mb : MultiBody K}
open scoped Mat3

theorem writeCols_eq {M : Type} [Zero M] (cols : List M) (cur n : Nat) (g : Nat → M → Res M) (h : Nat → M → M) (hl : cur + n ≤ cols.length) (hg : ∀ a, a < n → ∀ old, g a old = .ok (h a old)) :
    writeCols cols cur n g =
      .ok (cols.take cur ++ (List.range n).map (fun a => h a (cols.getD (cur + a) 0)) ++ cols.drop (cur + n)) := by
  unfold writeCols
  refine (foldlM_range_inv (fun cols a => do
    let old ← rd cols (cur + a)
    wr cols (cur + a) (← g a old)) (fun k s => s = cols.take cur ++ (List.range k).map (fun a => h a (cols.getD (cur + a) 0)) ++
      cols.drop (cur + k)) n cols (by simp) ?_).elim ?_
  · rintro k s hk rfl
    have hk' : cur + k < cols.length := by omega
    have e1 : (cols.take cur ++ (List.range k).map (fun a => h a (cols.getD (cur + a) 0))).length = cur + k := by
      simp only [List.length_append, List.length_take, List.length_map, List.length_range]; omega
    have e2 : rd (cols.take cur ++ (List.range k).map (fun a => h a (cols.getD (cur + a) 0)) ++ cols.drop (cur + k)) (cur + k) =
        .ok (cols.getD (cur + k) 0) := by
      apply rd_of_getElem?
      rw [List.getElem?_append_right (by omega), e1, Nat.sub_self, List.getElem?_drop, Nat.add_zero, List.getD_eq_getElem?_getD,
        List.getElem?_eq_getElem hk', Option.getD_some]
    simp only [e2, Res.bind_ok, hg k hk, exists_eq_left']
    rw [wr_ok (by simp only [List.length_append, List.length_take, List.length_drop, List.length_map, List.length_range]; omega)]
    refine ⟨_, rfl, ?_⟩
    rw [List.set_append_right _ _ (by omega), e1, Nat.sub_self, List.drop_eq_getElem_cons hk', List.set_cons_zero, List.range_succ,
      List.map_append, ← Nat.add_assoc]
    simp
  · rintro s ⟨hs, rfl⟩
    exact hs

/-- Number of columns of the first `k` joints of a path. -/
def MultiBody.colOff (mb : MultiBody K) (path : List Nat) (k : Nat) : Nat := ((path.take k).map mb.dofAt).sum

theorem MultiBody.colOff_succ {path : List Nat} {k : Nat} (hk : k < path.length) :
    mb.colOff path (k + 1) = mb.colOff path k + mb.dofAt path[k] := by
  unfold MultiBody.colOff
  rw [map_take_sum_succ _ hk]

theorem MultiBody.colOff_le {path : List Nat} {k : Nat} (hk : k < path.length) :
    mb.colOff path k + mb.dofAt path[k] ≤ (path.map mb.dofAt).sum := by
  unfold MultiBody.colOff
  exact map_take_sum_add_le _ hk

/-- The columns that the joints of a path get. -/
def MultiBody.pathCols {α : Type} (mb : MultiBody K) (path : List Nat) (h : Nat → Nat → α) (k : Nat) : List α :=
  (List.range k).flatMap fun x => (List.range (mb.dofAt (path.getD x 0))).map (h x)

theorem MultiBody.pathCols_succ {α : Type} (path : List Nat) (h : Nat → Nat → α) {k : Nat} (hk : k < path.length) :
    mb.pathCols path h (k + 1) = mb.pathCols path h k ++ (List.range (mb.dofAt path[k])).map (h k) := by
  unfold MultiBody.pathCols
  rw [List.range_succ, List.flatMap_append]
  simp [List.getElem?_eq_getElem hk]

theorem MultiBody.pathCols_length {α : Type} (path : List Nat) (h : Nat → Nat → α) {k : Nat} (hk : k ≤ path.length) :
    (mb.pathCols path h k).length = mb.colOff path k := by
  induction k with
  | zero => simp [MultiBody.pathCols, MultiBody.colOff]
  | succ k ih =>
    rw [mb.pathCols_succ path h hk, mb.colOff_succ hk, List.length_append, ih (by omega)]
    simp

theorem fillCols_eq (wf : mb.WF) (path : List Nat) (prep : Nat → Nat → Res (Nat → MotionVec K → Res (MotionVec K)))
    (h : Nat → Nat → MotionVec K → MotionVec K) (cols : List (MotionVec K)) (hp : ∀ i ∈ path, i < mb.bodies.length)
    (hl : cols.length = (path.map mb.dofAt).sum)
    (hg : ∀ x (hx : x < path.length), ∃ g, prep x path[x] = .ok g ∧ ∀ a, a < mb.dofAt path[x] → ∀ old, g a old = .ok (h x a old)) :
    fillCols mb path prep cols = .ok (mb.pathCols path (fun x a => h x a (cols.getD (mb.colOff path x + a) 0)) path.length,
      mb.colOff path path.length) := by
  unfold fillCols
  refine (foldlM_range_inv (fun (s : List (MotionVec K) × Nat) index => do
    let i ← rd path index
    let g ← prep index i
    let j ← rd mb.joints i
    return (← writeCols s.1 s.2 j.dof g, s.2 + j.dof))
    (fun k s => s = (mb.pathCols path (fun x a => h x a (cols.getD (mb.colOff path x + a) 0)) k ++ cols.drop (mb.colOff path k),
      mb.colOff path k)) path.length (cols, 0) (by simp [MultiBody.pathCols, MultiBody.colOff]) ?_).elim ?_
  · rintro k s hk rfl
    obtain ⟨g, hg1, hg2⟩ := hg k hk
    obtain ⟨j, hj, hd⟩ := wf.rd_joint (hp _ (List.getElem_mem hk))
    have hle := mb.colOff_le (path := path) hk
    have hlen := mb.pathCols_length path (fun x a => h x a (cols.getD (mb.colOff path x + a) 0)) hk.le
    have hw := writeCols_eq (mb.pathCols path (fun x a => h x a (cols.getD (mb.colOff path x + a) 0)) k ++ cols.drop (mb.colOff path k))
      (mb.colOff path k) (mb.dofAt path[k]) g (h k)
      (by simp only [List.length_append, List.length_drop, hlen]; omega) hg2
    simp only [rd_ok hk, Res.bind_ok, hg1, hj, hd, hw, Res.pure_eq, Except.ok.injEq, exists_eq_left']
    rw [mb.pathCols_succ path _ hk, mb.colOff_succ hk]
    congr 1
    rw [List.take_append_of_le_length (by omega), List.take_of_length_le (by omega)]
    congr 1
    · congr 1
      refine List.map_congr_left fun a ha => ?_
      rw [List.mem_range] at ha
      congr 1
      rw [List.getD_eq_getElem?_getD (l := _ ++ _), List.getElem?_append_right (by omega), List.getElem?_drop, hlen,
        List.getD_eq_getElem?_getD]
      congr 2; omega
    · rw [List.drop_append, hlen, List.drop_drop, List.drop_eq_nil_of_le (by omega)]
      simp
  · rintro s ⟨hs, rfl⟩
    rw [hs]
    congr 2
    have : mb.colOff path path.length = cols.length := by rw [hl, MultiBody.colOff, List.take_length]
    rw [this, List.drop_length, List.append_nil]

/-- When the new columns do not depend on the old ones. -/
theorem fillCols_eq' (wf : mb.WF) (path : List Nat) (prep : Nat → Nat → Res (Nat → MotionVec K → Res (MotionVec K)))
    (h : Nat → Nat → MotionVec K) (cols : List (MotionVec K)) (hp : ∀ i ∈ path, i < mb.bodies.length)
    (hl : cols.length = (path.map mb.dofAt).sum)
    (hg : ∀ x (hx : x < path.length), ∃ g, prep x path[x] = .ok g ∧ ∀ a, a < mb.dofAt path[x] → ∀ old, g a old = .ok (h x a)) :
    fillCols mb path prep cols = .ok (mb.pathCols path h path.length, mb.colOff path path.length) :=
  fillCols_eq wf path prep (fun x a _ => h x a) cols hp hl hg

theorem MBC.PosReady.rd_pos {mbc : MBC K} (h : mbc.PosReady mb) {i : Nat} (hi : i < mb.bodies.length) :
    rd mbc.bodyPosW i = .ok (mb.posAt mbc.q i) := by rw [h.bodyPosW]; exact rd_of_getElem? (range_map_getElem? hi)
theorem MBC.PosReady.rd_pts {mbc : MBC K} (h : mbc.PosReady mb) {i : Nat} (hi : i < mb.bodies.length) :
    rd mbc.parentToSon i = .ok (mb.ptsAt mbc.q i) := by rw [h.parentToSon]; exact rd_of_getElem? (range_map_getElem? hi)
theorem MBC.PosReady.rd_S {mbc : MBC K} (h : mbc.PosReady mb) {i : Nat} (hi : i < mb.bodies.length) :
    rd mbc.motionSubspace i = .ok (mb.SAt i) := by rw [h.motionSubspace]; exact rd_of_getElem? (range_map_getElem? hi)
theorem MBC.VelReady.rd_vj {mbc : MBC K} (h : mbc.VelReady mb) {i : Nat} (hi : i < mb.bodies.length) :
    rd mbc.jointVelocity i = .ok (mb.jointMotion mbc.alpha i) := by
  rw [h.jointVelocity]; exact rd_of_getElem? (range_map_getElem? hi)
theorem MBC.VelReady.rd_vB {mbc : MBC K} (h : mbc.VelReady mb) {i : Nat} (hi : i < mb.bodies.length) :
    rd mbc.bodyVelB i = .ok (mb.velAt mbc.q mbc.alpha i) := by
  rw [h.bodyVelB]; exact rd_of_getElem? (range_map_getElem? hi)
theorem MBC.VelReady.rd_vW {mbc : MBC K} (h : mbc.VelReady mb) {i : Nat} (hi : i < mb.bodies.length) :
    rd mbc.bodyVelW i = .ok (mb.velWAt mbc.q mbc.alpha i) := by
  rw [h.bodyVelW]; exact rd_of_getElem? (range_map_getElem? hi)

theorem MultiBody.WF.rd_SAt (wf : mb.WF) {i a : Nat} (hi : i < mb.bodies.length) (ha : a < mb.dofAt i) :
    rd (mb.SAt i) a = .ok ((mb.SAt i).getD a 0) := by
  rw [← wf.SAt_length hi] at ha
  rw [rd_ok ha, List.getD_eq_getElem?_getD, List.getElem?_eq_getElem ha, Option.getD_some]

/-- Columns of `jacobian_`. -/
def MultiBody.jacCols (mb : MultiBody K) (q : List (List K)) (X0p : PTransform K) (path : List Nat) (sign : List K) : List (MotionVec K) :=
  mb.pathCols path (fun x a => (X0p * (mb.posAt q (path.getD x 0)).inv).mulMotion (sign.getD x 0 • (mb.SAt (path.getD x 0)).getD a 0))
    path.length

theorem jacobianFill_eq (wf : mb.WF) {mbc : MBC K} (hv : mbc.PosReady mb) (X0p : PTransform K) {path : List Nat} {sign : List K}
    {jac : List (MotionVec K)} (hp : ∀ i ∈ path, i < mb.bodies.length) (hs : sign.length = path.length)
    (hl : jac.length = (path.map mb.dofAt).sum) :
    jacobianFill mb mbc X0p path sign jac = .ok (mb.jacCols mbc.q X0p path sign) := by
  unfold jacobianFill
  rw [fillCols_eq' wf path _ (fun x a => (X0p * (mb.posAt mbc.q (path.getD x 0)).inv).mulMotion
    (sign.getD x 0 • (mb.SAt (path.getD x 0)).getD a 0)) jac hp hl]
  · rfl
  · intro x hx
    have hi := hp _ (List.getElem_mem hx)
    refine ⟨_, by simp only [hv.rd_pos hi, Res.bind_ok, Res.pure_eq]; rfl, fun a ha old => ?_⟩
    have hx' : x < sign.length := by omega
    simp only [rd_ok hx', hv.rd_S hi, Res.bind_ok, wf.rd_SAt hi ha, Res.pure_eq, List.getD_eq_getElem?_getD,
      List.getElem?_eq_getElem hx, List.getElem?_eq_getElem hx', Option.getD_some]

/-! ### Multiplying by a vector -/

theorem applyCols_append {A B : List (MotionVec K)} {a b : List K} (h : A.length = a.length) :
    applyCols (A ++ B) (a ++ b) = applyCols A a + applyCols B b := by
  unfold applyCols
  rw [List.zipWith_append h.symm]
  simp

theorem applyCols_map {α : Type} (X : MotionVec K →ₗ[K] MotionVec K) (f : α → MotionVec K) (l : List α) (a : List K) :
    applyCols (l.map fun c => X (f c)) a = X (applyCols (l.map f) a) := by
  induction l generalizing a with
  | nil => simp [applyCols]
  | cons c l ih =>
    cases a with
    | nil => simp [applyCols]
    | cons y a =>
      have := ih a
      unfold applyCols at this ⊢
      simp [this]

theorem SizedDof.getD_length (wf : mb.WF) {v : List (List K)} (h : SizedDof mb v) {i : Nat} (hi : i < mb.bodies.length) :
    ((v[i]?).getD []).length = mb.dofAt i := by
  obtain ⟨x, hx, hl⟩ := h.rd_length wf hi
  rw [rd_eq_ok_iff.1 hx, Option.getD_some, hl]

/-- Columns of a path times the vector of the path: the joints contribute one by one. -/
theorem applyCols_pathCols (wf : mb.WF) {v : List (List K)} (hv : SizedDof mb v) (path : List Nat) (h : Nat → Nat → MotionVec K)
    (hp : ∀ i ∈ path, i < mb.bodies.length) :
    applyCols (mb.pathCols path h path.length) (pathVec path v) =
      ∑ x ∈ Finset.range path.length, applyCols ((List.range (mb.dofAt (path.getD x 0))).map (h x)) ((v[path.getD x 0]?).getD []) := by
  have key : ∀ k, k ≤ path.length → applyCols (mb.pathCols path h k) (pathVec (path.take k) v) =
      ∑ x ∈ Finset.range k, applyCols ((List.range (mb.dofAt (path.getD x 0))).map (h x)) ((v[path.getD x 0]?).getD []) := by
    intro k
    induction k with
    | zero => intro _; simp [MultiBody.pathCols, applyCols]
    | succ k ih =>
      intro hk
      have e : pathVec (path.take (k + 1)) v = pathVec (path.take k) v ++ (v[path[k]]?).getD [] := by
        unfold pathVec
        rw [List.take_add_one, List.getElem?_eq_getElem hk, List.flatMap_append]
        simp
      have hlen : (pathVec (path.take k) v).length = mb.colOff path k := by
        unfold pathVec MultiBody.colOff
        rw [List.length_flatMap]
        congr 1
        refine List.map_congr_left fun i hi => hv.getD_length wf (hp i (List.mem_of_mem_take hi))
      rw [Finset.sum_range_succ, ← ih (by omega), mb.pathCols_succ path h hk, e, applyCols_append (by
        rw [hlen, mb.pathCols_length path h (by omega)])]
      simp only [List.getD_eq_getElem?_getD, List.getElem?_eq_getElem hk, Option.getD_some]
  have := key path.length le_rfl
  rwa [List.take_length] at this

/-- A linear function of the columns of the motion subspace. -/
theorem MultiBody.WF.apply_S (wf : mb.WF) (v : List (List K)) (L : MotionVec K →ₗ[K] MotionVec K) {i : Nat}
    (hi : i < mb.bodies.length) :
    applyCols ((List.range (mb.dofAt i)).map fun a => L ((mb.SAt i).getD a 0)) ((v[i]?).getD []) = L (mb.jointMotion v i) := by
  rw [applyCols_map L (fun a => (mb.SAt i).getD a 0)]
  congr 1
  unfold MultiBody.jointMotion
  congr 1
  apply List.ext_getElem
  · simp [wf.SAt_length hi]
  · intro a h1 h2
    simp [List.getElem?_eq_getElem h2]

theorem getD_mem {path : List Nat} {x : Nat} (hx : x < path.length) : path.getD x 0 ∈ path := by
  rw [List.getD_eq_getElem?_getD, List.getElem?_eq_getElem hx, Option.getD_some]; exact List.getElem_mem hx

theorem jacCols_apply (wf : mb.WF) {v : List (List K)} (hv : SizedDof mb v) (q : List (List K)) (X0p : PTransform K) {path : List Nat}
    (sign : List K) (hp : ∀ i ∈ path, i < mb.bodies.length) :
    applyCols (mb.jacCols q X0p path sign) (pathVec path v) = ∑ x ∈ Finset.range path.length,
      sign.getD x 0 • (X0p * (mb.posAt q (path.getD x 0)).inv).mulMotion (mb.jointMotion v (path.getD x 0)) := by
  unfold MultiBody.jacCols
  rw [applyCols_pathCols wf hv path _ hp]
  refine Finset.sum_congr rfl fun x hx => ?_
  rw [Finset.mem_range] at hx
  have hi := hp _ (getD_mem hx)
  have := wf.apply_S v (sign.getD x 0 • (X0p * (mb.posAt q (path.getD x 0)).inv).motionHom) hi
  simp only [LinearMap.smul_apply, PTransform.motionHom_apply] at this
  rw [← this]
  congr 2
  funext a
  rw [PTransform.mulMotion_smul]

/-! ### The path of a body -/

theorem sum_getD {M : Type} [AddCommMonoid M] (f : Nat → M) (l : List Nat) :
    ∑ x ∈ Finset.range l.length, f (l.getD x 0) = (l.map f).sum := by
  induction l with
  | nil => simp
  | cons a l ih => rw [List.length_cons, Finset.sum_range_succ', add_comm]; simp [← ih]

theorem MultiBody.WF.mem_pathUp_lt (_wf : mb.WF) {N k : Nat} (hN : N < mb.bodies.length) (h : k ∈ pathUp mb.par N) :
    k < mb.bodies.length := lt_of_le_of_lt (le_of_mem_pathUp h) hN

theorem MultiBody.WF.sum_pathUp {M : Type} [AddCommMonoid M] (wf : mb.WF) (f : Nat → M) {N : Nat} (hN : N < mb.bodies.length) :
    ((pathUp mb.par N).map f).sum = ∑ k ∈ mb.path N, f k := by
  rw [← List.sum_toFinset f (pathUp_nodup N)]
  refine Finset.sum_congr ?_ fun _ _ => rfl
  ext k
  rw [List.mem_toFinset, mb.mem_path]
  exact ⟨fun h => ⟨wf.mem_pathUp_lt hN h, h⟩, fun h => h.2⟩

theorem MultiBody.WF.sum_path {M : Type} [AddCommMonoid M] (wf : mb.WF) (f : Nat → M) {N : Nat} (hN : N < mb.bodies.length) :
    ∑ x ∈ Finset.range (pathUp mb.par N).reverse.length, f ((pathUp mb.par N).reverse.getD x 0) = ∑ k ∈ mb.path N, f k := by
  rw [sum_getD, List.map_reverse, List.sum_reverse, wf.sum_pathUp f hN]

/-- The path ends with the body itself. -/
theorem pathUp_head {par : Nat → Option Nat} (N : Nat) : ∃ l, pathUp par N = N :: l := by
  cases h : par N with
  | none => exact ⟨[], pathUp_none h⟩
  | some k =>
    by_cases hk : k < N
    · exact ⟨_, pathUp_some h hk⟩
    · refine ⟨[], ?_⟩
      rw [pathUp]
      split
      · rename_i j hj
        rw [h] at hj; cases hj
        simp [hk]
      · rfl

theorem Jac.Of.back {J : Jac K} {N : Nat} {p : Vec3 K} (h : J.Of mb N p) : J.back = .ok N := by
  obtain ⟨l, hl⟩ := pathUp_head (par := mb.par) N
  have : J.path = l.reverse ++ [N] := by rw [h.path_eq, hl, List.reverse_cons]
  unfold Jac.back
  rw [this, if_neg (by simp)]
  apply rd_of_getElem?
  simp

theorem MultiBody.WF.rdI_parent (wf : mb.WF) {i : Nat} (hi : i < mb.bodies.length) :
    ∃ p, mb.parentAt i = .ok p ∧ ((p = -1 ∧ mb.par i = none) ∨ ∃ j : Nat, p = j ∧ mb.par i = some j ∧ j < i) := by
  obtain ⟨p, h1, h2⟩ := wf.pred_cases hi
  exact ⟨p, by rw [MultiBody.parentAt, rdI_ofNat, wf.parent]; exact h1, h2⟩

theorem MultiBody.WF.rdI_joint (wf : mb.WF) {i : Nat} (hi : i < mb.bodies.length) :
    ∃ j, mb.joint i = .ok j ∧ j.dof = mb.dofAt i := by
  obtain ⟨j, h1, h2⟩ := wf.rd_joint hi
  exact ⟨j, by rw [MultiBody.joint, rdI_ofNat]; exact h1, h2⟩

theorem toIdx_ofNat (i : Nat) : toIdx (i : Int) = .ok i := by simp [toIdx]

theorem pathLoop_end (mb : MultiBody K) (fuel : Nat) (s : List Nat × List K × Nat) : pathLoop mb (fuel + 1) (-1) s = .ok s := by
  obtain ⟨a, b, c⟩ := s
  rw [pathLoop, if_neg (by simp)]; rfl

theorem pathLoop_eq (wf : mb.WF) : ∀ (fuel i : Nat), i < mb.bodies.length → i + 2 ≤ fuel → ∀ (path : List Nat) (sign : List K) (dof : Nat),
    pathLoop mb fuel i (path, sign, dof) = .ok ((pathUp mb.par i).reverse ++ path, ((pathUp mb.par i).reverse.map fun _ => (1 : K)) ++ sign,
      dof + ((pathUp mb.par i).map mb.dofAt).sum)
  | 0, i, hi, hf, path, sign, dof => by omega
  | fuel + 1, i, hi, hf, path, sign, dof => by
    obtain ⟨j, hj, hd⟩ := wf.rdI_joint hi
    obtain ⟨p, hp, ⟨rfl, hpar⟩ | ⟨k, rfl, hpar, hk⟩⟩ := wf.rdI_parent hi
    · rw [pathLoop, if_pos (by omega), toIdx_ofNat, Res.bind_ok, hj, Res.bind_ok, hp, Res.bind_ok]
      obtain ⟨f, rfl⟩ : ∃ f, fuel = f + 1 := ⟨fuel - 1, by omega⟩
      rw [pathLoop_end, pathUp_none hpar]
      simp [hd]
    · rw [pathLoop, if_pos (by omega), toIdx_ofNat, Res.bind_ok, hj, Res.bind_ok, hp, Res.bind_ok,
        pathLoop_eq wf fuel k (by omega) (by omega), pathUp_some hpar hk]
      simp [hd, Nat.add_assoc]

/-- The constructor. -/
theorem Jac.mk'_of (wf : mb.WF) (junk : Nat → MotionVec K) {name : String} {N : Nat} (hN : mb.sBodyIndexByName name = .ok (N : Int))
    (hlt : N < mb.bodies.length) (p : Vec3 K) : ∃ J, Jac.mk' junk mb name p = .ok J ∧ J.Of mb N p := by
  have h := pathLoop_eq wf (mb.bodies.length + 1) N hlt (by omega) [] [] 0
  unfold Jac.mk'
  rw [hN, Res.bind_ok, h]
  refine ⟨_, rfl, ?_⟩
  exact
    { path := by
        intro i hi
        simp only [List.append_nil, List.mem_reverse] at hi
        exact wf.mem_pathUp_lt hlt hi
      sign := by simp
      jac := by simp
      jacDot := by simp
      isBody := hlt
      path_eq := by simp
      sign_eq := by simp
      point := rfl
      body := rfl
      ref := rfl }

theorem Jac.Of.sum {M : Type} [AddCommGroup M] [Module K M] (wf : mb.WF) {J : Jac K} {N : Nat} {p : Vec3 K} (h : J.Of mb N p)
    (f : Nat → M) :
    ∑ x ∈ Finset.range J.path.length, J.sign.getD x 0 • f (J.path.getD x 0) = ∑ k ∈ mb.path N, f k := by
  rw [← wf.sum_path f h.isBody, ← h.path_eq]
  refine Finset.sum_congr rfl fun x hx => ?_
  rw [Finset.mem_range] at hx
  rw [h.sign_eq]
  simp [hx]

theorem ofTrans_rigid (r : Vec3 K) : IsRigid (PTransform.ofTrans r) := IsRot.one
theorem ofRot_rigid {E : Mat3 K} (h : IsRot E) : IsRigid (PTransform.ofRot E) := h

/-- The transported joint velocities of the path add up to the body velocity. -/
theorem MultiBody.sum_transport (mb : MultiBody K) (hr : mb.Rigid) {q : List (List K)} (hq : ValidQ mb q) (X0p : PTransform K)
    (N : Nat) (f : Nat → MotionVec K) :
    ∑ k ∈ mb.path N, (X0p * (mb.posAt q k).inv).mulMotion (f k) =
      (X0p * (mb.posAt q N).inv).mulMotion (∑ k ∈ mb.path N, (mb.relAt q k N).mulMotion (f k)) := by
  rw [← PTransform.motionHom_apply, map_sum]
  refine Finset.sum_congr rfl fun k _ => ?_
  have hN := mb.posAt_rigid hr hq N
  rw [PTransform.motionHom_apply, MultiBody.relAt, ← PTransform.mul_mulMotion _ _ _ (hN.mul (mb.posAt_rigid hr hq k).inv)]
  congr 1
  rw [PTransform.mul_assoc', ← PTransform.mul_assoc' (mb.posAt q N).inv, PTransform.inv_mul hN, PTransform.one_mul']

theorem ofTrans_mul_inv {W : PTransform K} (h : IsRigid W) (p : Vec3 K) :
    PTransform.ofTrans (PTransform.ofTrans p * W).r * W.inv = ⟨W.E.tr, p⟩ := by
  ext1
  · simp [PTransform.ofTrans, PTransform.inv]
  · simp only [PTransform.mul_r, PTransform.ofTrans, PTransform.inv, Mat3.tr_tr, Mat3.mulVec_add, h.mulVec_tr]
    abel

theorem pointVel_eq (W : PTransform K) (V : MotionVec K) (p : Vec3 K) : (⟨W.E.tr, p⟩ : PTransform K).mulMotion V = pointVel W V p := by
  unfold pointVel PTransform.mulMotion
  rw [Vec3.cross_anti V.ang p, sub_eq_add_neg]

theorem pointVelB_eq (V : MotionVec K) (p : Vec3 K) : (PTransform.ofTrans p).mulMotion V = pointVelB V p := by
  unfold pointVelB PTransform.mulMotion PTransform.ofTrans
  rw [Vec3.cross_anti V.ang p, sub_eq_add_neg]
  simp

/-! ### The Jacobian matrices of a body -/

theorem Jac.Of.jacobian_eq (wf : mb.WF) {mbc : MBC K} (hv : mbc.PosReady mb) {J : Jac K} {N : Nat} {p : Vec3 K} (h : J.Of mb N p) :
    J.jacobian mb mbc = .ok { J with jac := mb.jacCols mbc.q (.ofTrans (PTransform.ofTrans p * mb.posAt mbc.q N).r) J.path J.sign } := by
  unfold Jac.jacobian Jac.toRef
  simp only [h.back, Res.bind_ok, hv.rd_pos h.isBody, jacobianFill_eq wf hv _ h.path h.sign h.jac, h.ref, lt_irrefl, if_false, Res.pure_eq,
    h.point]

theorem Jac.Of.bodyJacobian_eq (wf : mb.WF) {mbc : MBC K} (hv : mbc.PosReady mb) {J : Jac K} {N : Nat} {p : Vec3 K} (h : J.Of mb N p) :
    J.bodyJacobian mb mbc = .ok { J with jac := mb.jacCols mbc.q (PTransform.ofTrans p * mb.posAt mbc.q N) J.path J.sign } := by
  unfold Jac.bodyJacobian
  simp only [h.back, Res.bind_ok, hv.rd_pos h.isBody, jacobianFill_eq wf hv _ h.path h.sign h.jac, Res.pure_eq, h.point]

theorem jacCols_length (q : List (List K)) (X : PTransform K) (path : List Nat) (sign : List K) :
    (mb.jacCols q X path sign).length = (path.map mb.dofAt).sum := by
  unfold MultiBody.jacCols
  rw [mb.pathCols_length path _ le_rfl, MultiBody.colOff, List.take_length]

theorem Jac.Of.with_jac {J : Jac K} {N : Nat} {p : Vec3 K} (h : J.Of mb N p) {jac : List (MotionVec K)}
    (hl : jac.length = (J.path.map mb.dofAt).sum) : ({ J with jac := jac } : Jac K).Of mb N p :=
  { h with jac := hl }

theorem Jac.Of.with_jacDot {J : Jac K} {N : Nat} {p : Vec3 K} (h : J.Of mb N p) {jac : List (MotionVec K)}
    (hl : jac.length = (J.path.map mb.dofAt).sum) : ({ J with jacDot := jac } : Jac K).Of mb N p :=
  { h with jacDot := hl }

theorem Jac.Of.apply (wf : mb.WF) (hr : mb.Rigid) {q : List (List K)} (hq : ValidQ mb q) {J : Jac K} {N : Nat} {p : Vec3 K}
    (h : J.Of mb N p) {v : List (List K)} (hv : SizedDof mb v) (X0p : PTransform K) :
    applyCols (mb.jacCols q X0p J.path J.sign) (pathVec J.path v) = (X0p * (mb.posAt q N).inv).mulMotion (mb.velAt q v N) := by
  rw [jacCols_apply wf hv q X0p J.sign h.path,
    h.sum wf fun k => (X0p * (mb.posAt q k).inv).mulMotion (mb.jointMotion v k), mb.sum_transport hr hq]
  rfl

end RBDyn
