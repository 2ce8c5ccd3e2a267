import Mathlib.Analysis.InnerProductSpace.PiL2
import Mathlib.Analysis.Calculus.FDeriv.Pi
import Mathlib.Analysis.Calculus.FDeriv.Mul
import Mathlib.Analysis.SpecialFunctions.Trigonometric.Deriv
import Verif.Props.Reach
import Verif.Props.Integration
import Verif.Lemmas.KinDeriv
import Verif.Lemmas.LagrangeMore

/-! Poses as continuously differentiable functions of all coordinates of a path at once. -/

namespace RBDyn
open scoped Mat3

section diff
variable {V : Type} [NormedAddCommGroup V] [NormedSpace ℝ V]

structure DiffVec (f : V → Vec3 ℝ) : Prop where
  x : ContDiff ℝ 1 fun v => (f v).x
  y : ContDiff ℝ 1 fun v => (f v).y
  z : ContDiff ℝ 1 fun v => (f v).z

structure DiffMat (f : V → Mat3 ℝ) : Prop where
  m00 : ContDiff ℝ 1 fun v => (f v).m00
  m01 : ContDiff ℝ 1 fun v => (f v).m01
  m02 : ContDiff ℝ 1 fun v => (f v).m02
  m10 : ContDiff ℝ 1 fun v => (f v).m10
  m11 : ContDiff ℝ 1 fun v => (f v).m11
  m12 : ContDiff ℝ 1 fun v => (f v).m12
  m20 : ContDiff ℝ 1 fun v => (f v).m20
  m21 : ContDiff ℝ 1 fun v => (f v).m21
  m22 : ContDiff ℝ 1 fun v => (f v).m22

structure DiffPT (f : V → PTransform ℝ) : Prop where
  E : DiffMat fun v => (f v).E
  r : DiffVec fun v => (f v).r

structure DiffMotion (f : V → MotionVec ℝ) : Prop where
  ang : DiffVec fun v => (f v).ang
  lin : DiffVec fun v => (f v).lin

theorem DiffVec.const (c : Vec3 ℝ) : DiffVec fun _ : V => c := ⟨by fun_prop, by fun_prop, by fun_prop⟩

theorem DiffMat.const (c : Mat3 ℝ) : DiffMat fun _ : V => c := by constructor <;> fun_prop

theorem DiffPT.const (c : PTransform ℝ) : DiffPT fun _ : V => c := ⟨.const _, .const _⟩

theorem DiffVec.add {f g : V → Vec3 ℝ} (hf : DiffVec f) (hg : DiffVec g) : DiffVec fun v => f v + g v :=
  ⟨hf.x.add hg.x, hf.y.add hg.y, hf.z.add hg.z⟩

theorem DiffVec.sub {f g : V → Vec3 ℝ} (hf : DiffVec f) (hg : DiffVec g) : DiffVec fun v => f v - g v :=
  ⟨hf.x.sub hg.x, hf.y.sub hg.y, hf.z.sub hg.z⟩

theorem DiffVec.neg {f : V → Vec3 ℝ} (hf : DiffVec f) : DiffVec fun v => -f v := ⟨hf.x.neg, hf.y.neg, hf.z.neg⟩

theorem DiffVec.smul {s : V → ℝ} {f : V → Vec3 ℝ} (hs : ContDiff ℝ 1 s) (hf : DiffVec f) : DiffVec fun v => s v • f v :=
  ⟨hs.mul hf.x, hs.mul hf.y, hs.mul hf.z⟩

theorem DiffVec.cross {f g : V → Vec3 ℝ} (hf : DiffVec f) (hg : DiffVec g) : DiffVec fun v => (f v).cross (g v) :=
  ⟨(hf.y.mul hg.z).sub (hf.z.mul hg.y), (hf.z.mul hg.x).sub (hf.x.mul hg.z), (hf.x.mul hg.y).sub (hf.y.mul hg.x)⟩

theorem DiffMat.tr {f : V → Mat3 ℝ} (h : DiffMat f) : DiffMat fun v => (f v).tr :=
  ⟨h.m00, h.m10, h.m20, h.m01, h.m11, h.m21, h.m02, h.m12, h.m22⟩

theorem DiffMat.mulVec {f : V → Mat3 ℝ} {g : V → Vec3 ℝ} (h : DiffMat f) (hg : DiffVec g) : DiffVec fun v => f v *ᵥ g v :=
  ⟨((h.m00.mul hg.x).add (h.m01.mul hg.y)).add (h.m02.mul hg.z), ((h.m10.mul hg.x).add (h.m11.mul hg.y)).add (h.m12.mul hg.z),
    ((h.m20.mul hg.x).add (h.m21.mul hg.y)).add (h.m22.mul hg.z)⟩

theorem DiffMat.mul {f g : V → Mat3 ℝ} (h : DiffMat f) (k : DiffMat g) : DiffMat fun v => f v * g v :=
  ⟨((h.m00.mul k.m00).add (h.m01.mul k.m10)).add (h.m02.mul k.m20), ((h.m00.mul k.m01).add (h.m01.mul k.m11)).add (h.m02.mul k.m21),
    ((h.m00.mul k.m02).add (h.m01.mul k.m12)).add (h.m02.mul k.m22),
    ((h.m10.mul k.m00).add (h.m11.mul k.m10)).add (h.m12.mul k.m20), ((h.m10.mul k.m01).add (h.m11.mul k.m11)).add (h.m12.mul k.m21),
    ((h.m10.mul k.m02).add (h.m11.mul k.m12)).add (h.m12.mul k.m22),
    ((h.m20.mul k.m00).add (h.m21.mul k.m10)).add (h.m22.mul k.m20), ((h.m20.mul k.m01).add (h.m21.mul k.m11)).add (h.m22.mul k.m21),
    ((h.m20.mul k.m02).add (h.m21.mul k.m12)).add (h.m22.mul k.m22)⟩

theorem DiffPT.mul {f g : V → PTransform ℝ} (hf : DiffPT f) (hg : DiffPT g) : DiffPT fun v => f v * g v :=
  ⟨hf.E.mul hg.E, hg.r.add (hg.E.tr.mulVec hf.r)⟩

theorem DiffPT.inv {f : V → PTransform ℝ} (hf : DiffPT f) : DiffPT fun v => (f v).inv := ⟨hf.E.tr, (hf.E.mulVec hf.r).neg⟩

theorem DiffPT.mulMotion {f : V → PTransform ℝ} (hf : DiffPT f) (c : MotionVec ℝ) : DiffMotion fun v => (f v).mulMotion c :=
  ⟨hf.E.mulVec (.const _), hf.E.mulVec ((DiffVec.const _).sub (hf.r.cross (.const _)))⟩

theorem DiffPT.prod {f : Nat → V → PTransform ℝ} : ∀ l : List Nat, (∀ i ∈ l, DiffPT (f i)) → DiffPT fun v => (l.map fun i => f i v).prod
  | [], _ => .const _
  | i :: l, h => by
    simp only [List.map_cons, List.prod_cons]
    exact (h i (by simp)).mul (DiffPT.prod l fun k hk => h k (by simp [hk]))

theorem DiffMat.angleAxis {f : V → ℝ} (hf : ContDiff ℝ 1 f) (a : Vec3 ℝ) : DiffMat fun v => angleAxis (f v) a := by
  have hs : ContDiff ℝ 1 fun v => (Scalar.sin (f v) : ℝ) := hf.sin
  have hc : ContDiff ℝ 1 fun v => (Scalar.cos (f v) : ℝ) := hf.cos
  unfold RBDyn.angleAxis
  constructor <;> simp only [Vec3.smul_x, Vec3.smul_y, Vec3.smul_z] <;> fun_prop

/-- A joint whose coordinates are angles and lengths about and along its axis. -/
def JointType.Plain (t : JointType) : Prop := t = .Rev ∨ t = .Prism ∨ t = .Cylindrical ∨ t = .Fixed

theorem rd_getD {x : List ℝ} {a : Nat} (h : a < x.length) : rd x a = .ok (x.getD a 0) := by
  rw [rd_eq_ok_iff, List.getElem?_eq_getElem h, List.getD_eq_getElem?_getD, List.getElem?_eq_getElem h]; rfl

theorem Joint.Built.pose_diff {j : Joint ℝ} (hj : j.Built) (ht : j.type.Plain) {f : V → List ℝ} (hl : ∀ v, (f v).length = j.dof)
    (hf : ∀ a, ContDiff ℝ 1 fun v => (f v).getD a 0) : DiffPT fun v => ((j.pose (f v)).toOption.getD 1) := by
  have hd := hj.sizes.2
  rcases ht with e | e | e | e <;> rw [e] at hd <;> unfold Joint.pose <;> rw [e]
  · have h0 : ∀ v, rd (f v) 0 = .ok ((f v).getD 0 0) := fun v => rd_getD (by rw [hl, hd]; exact Nat.one_pos)
    cases hS : rd j.S 0 with
    | error e => exact .const _
    | ok s =>
      simp only [h0, Res.bind_ok]
      exact ⟨.angleAxis (hf 0).neg _, .const _⟩
  · have h0 : ∀ v, rd (f v) 0 = .ok ((f v).getD 0 0) := fun v => rd_getD (by rw [hl, hd]; exact Nat.one_pos)
    cases hS : rd j.S 0 with
    | error e => exact .const _
    | ok s =>
      simp only [h0, Res.bind_ok]
      exact ⟨.const _, .smul (hf 0) (.const _)⟩
  · have h0 : ∀ v, rd (f v) 0 = .ok ((f v).getD 0 0) := fun v => rd_getD (by rw [hl, hd]; exact Nat.two_pos)
    have h1 : ∀ v, rd (f v) 1 = .ok ((f v).getD 1 0) := fun v => rd_getD (by rw [hl, hd]; exact Nat.one_lt_two)
    cases hS : rd j.S 0 with
    | error e => exact .const _
    | ok s =>
      cases hS1 : rd j.S 1 with
      | error e => exact .const _
      | ok s1 =>
        simp only [h0, h1, Res.bind_ok]
        exact ⟨.angleAxis (hf 0).neg _, .smul (hf 1) (.const _)⟩
  · exact .const _

end diff

variable {mb : MultiBody ℝ}

/-- The configuration which has the coordinates `y` along the path and otherwise those of `q`. -/
def MultiBody.spread (mb : MultiBody ℝ) (path : List Nat) (y : Nat → ℝ) (q : List (List ℝ)) : List (List ℝ) :=
  (List.range mb.bodies.length).map fun i =>
    if i ∈ path then (List.range (mb.dofAt i)).map (fun a => y (mb.colOff path (path.idxOf i) + a)) else (q[i]?).getD []

theorem spread_get (path : List Nat) (y : Nat → ℝ) (q : List (List ℝ)) {i : Nat} (hi : i < mb.bodies.length) :
    (mb.spread path y q)[i]? = some (if i ∈ path then (List.range (mb.dofAt i)).map (fun a => y (mb.colOff path (path.idxOf i) + a))
      else (q[i]?).getD []) := by
  rw [MultiBody.spread, range_map_getElem? hi]

theorem pathCols_count (path : List Nat) (y : Nat → ℝ) : ∀ k, k ≤ path.length →
    mb.pathCols path (fun x a => y (mb.colOff path x + a)) k = (List.range (mb.colOff path k)).map y
  | 0, _ => by simp [MultiBody.pathCols, MultiBody.colOff]
  | k + 1, hk => by
    rw [mb.pathCols_succ path _ hk, pathCols_count path y k (by omega), MultiBody.colOff_succ hk, List.range_add, List.map_append, List.map_map]
    rfl

theorem pathVec_spread {path : List Nat} (hp : ∀ i ∈ path, i < mb.bodies.length) (hn : path.Nodup) (y : Nat → ℝ) (q : List (List ℝ)) :
    pathVec path (mb.spread path y q) = (List.range ((path.map mb.dofAt).sum)).map y := by
  have h := pathCols_count (mb := mb) path y path.length le_rfl
  rw [MultiBody.colOff, List.take_length] at h
  rw [← h]
  unfold pathVec MultiBody.pathCols
  have e : path.flatMap (fun i => ((mb.spread path y q)[i]?).getD []) =
      (List.range path.length).flatMap fun x => ((mb.spread path y q)[path.getD x 0]?).getD [] := by
    rw [List.flatMap_def, List.flatMap_def]
    congr 1
    refine List.ext_getElem (by simp) fun i h1 h2 => ?_
    rw [List.length_map] at h1
    simp [List.getElem?_eq_getElem h1]
  rw [e]
  refine List.flatMap_congr fun x hx => ?_
  have hx' := List.mem_range.1 hx
  have e1 : path.getD x 0 = path[x] := by rw [List.getD_eq_getElem?_getD, List.getElem?_eq_getElem hx']; rfl
  rw [e1, spread_get path y q (hp _ (List.getElem_mem hx')), if_pos (List.getElem_mem hx'), hn.idxOf_getElem]
  rfl

theorem spread_sizes (wf : mb.WF) {N : Nat} (hN : N < mb.bodies.length) {path : List Nat} (hpa : ∀ i, i ∈ path ↔ i ∈ pathUp mb.par N)
    (hpl : mb.PlainPath N) {q : List (List ℝ)} (hq : ValidQ mb q) (y : Nat → ℝ) : ValidQ mb (mb.spread path y q) := by
  have hl : (mb.spread path y q).length = mb.bodies.length := by simp [MultiBody.spread]
  refine List.forall₂_iff_get.2 ⟨by rw [hl, wf.njoints], fun i h1 h2 => ?_⟩
  rw [hl] at h2
  simp only [List.get_eq_getElem]
  have e := spread_get path y q h2
  rw [List.getElem?_eq_getElem (by rw [hl]; exact h2)] at e
  rw [Option.some.inj e]
  have ej : mb.joints[i]? = some mb.joints[i] := List.getElem?_eq_getElem h1
  split
  · rename_i hi
    obtain ⟨a1, a2⟩ := hpl i ((hpa i).1 hi) _ ej
    have hb := (wf.built _ (List.getElem_mem h1)).plain a1 a2
    refine hb.2 _ ?_
    rw [List.length_map, List.length_range, hb.1]
    simp [MultiBody.dofAt, ej]
  · have h3 : i < q.length := by rw [← hq.length_eq]; exact h1
    rw [List.getElem?_eq_getElem h3]
    exact (List.forall₂_iff_get.1 hq).2 i h1 h3

/-- The path to body `N` consists of plain joints. -/
def MultiBody.AxisPath (mb : MultiBody ℝ) (N : Nat) : Prop := ∀ i ∈ pathUp mb.par N, ∀ j, mb.joints[i]? = some j → j.type.Plain

theorem MultiBody.AxisPath.plain {N : Nat} (h : mb.AxisPath N) : mb.PlainPath N := fun i hi j e => by
  rcases h i hi j e with e | e | e | e <;> rw [e] <;> exact ⟨by simp, by simp⟩

section
variable {D : Nat}

/-- Coordinates as a function on all numbers. -/
def coordFun (v : Fin D → ℝ) (k : Nat) : ℝ := if h : k < D then v ⟨k, h⟩ else 0

theorem coordFun_diff (k : Nat) : ContDiff ℝ 1 fun v : Fin D → ℝ => coordFun v k := by
  unfold coordFun
  split <;> fun_prop

theorem spread_poseAt_diff (wf : mb.WF) {N : Nat} (hax : mb.AxisPath N) {path : List Nat} (hpa : ∀ i, i ∈ path ↔ i ∈ pathUp mb.par N)
    (q : List (List ℝ)) (i : Nat) : DiffPT fun v : Fin D → ℝ => mb.poseAt (mb.spread path (coordFun v) q) i := by
  by_cases hi : i < mb.bodies.length
  · obtain ⟨j, e, -⟩ := wf.joint_get hi
    unfold MultiBody.poseAt
    simp only [e, spread_get path _ q hi]
    by_cases hm : i ∈ path
    · simp only [if_pos hm]
      refine (wf.built j (List.mem_of_getElem? e)).pose_diff (hax i ((hpa i).1 hm) j e) (fun v => by simp [MultiBody.dofAt, e]) fun a => ?_
      by_cases ha : a < mb.dofAt i
      · simp only [List.getD_eq_getElem?_getD, range_map_getElem? ha, Option.getD_some]
        exact coordFun_diff _
      · simp only [List.getD_eq_getElem?_getD]
        have : ∀ v : Fin D → ℝ, ((List.range (mb.dofAt i)).map (fun a => coordFun v (mb.colOff path (path.idxOf i) + a)))[a]? = none := fun v => by
          rw [List.getElem?_eq_none_iff, List.length_map, List.length_range]; omega
        simp only [this]
        fun_prop
    · simp only [if_neg hm]
      exact .const _
  · have : mb.joints[i]? = none := by rw [List.getElem?_eq_none_iff, wf.njoints]; omega
    unfold MultiBody.poseAt
    simp only [this]
    exact .const _

theorem spread_posAt_diff (wf : mb.WF) {N : Nat} (hax : mb.AxisPath N) {path : List Nat} (hpa : ∀ i, i ∈ path ↔ i ∈ pathUp mb.par N)
    (q : List (List ℝ)) (i : Nat) : DiffPT fun v : Fin D → ℝ => mb.posAt (mb.spread path (coordFun v) q) i := by
  unfold MultiBody.posAt
  refine DiffPT.prod _ fun k _ => ?_
  unfold MultiBody.ptsAt
  exact (spread_poseAt_diff wf hax hpa q k).mul (.const _)

theorem pathCols_diff {V : Type} [NormedAddCommGroup V] [NormedSpace ℝ V] (path : List Nat) {h : V → Nat → Nat → MotionVec ℝ}
    (hh : ∀ x a, DiffMotion fun v => h v x a) (k c : Nat) : DiffMotion fun v => (mb.pathCols path (h v) k).getD c 0 := by
  have e : ∀ g : Nat → Nat → MotionVec ℝ, mb.pathCols path g k = (mb.pathCols path Prod.mk k).map fun p => g p.1 p.2 := fun g => by
    unfold MultiBody.pathCols
    rw [List.map_flatMap]
    simp only [List.map_map]
    rfl
  simp only [e (h _), List.getD_eq_getElem?_getD, List.getElem?_map]
  cases (mb.pathCols path Prod.mk k)[c]? with
  | none => exact ⟨.const _, .const _⟩
  | some p => exact hh _ _

theorem spread_cols_diff (wf : mb.WF) {N : Nat} (hax : mb.AxisPath N) {J : Jac ℝ} (hJ : J.Of mb N 0) (q : List (List ℝ)) (c : Nat) :
    DiffMotion fun v : Fin D → ℝ => (ikCols mb J N (mb.spread J.path (coordFun v) q)).getD c 0 := by
  have hpa : ∀ i, i ∈ J.path ↔ i ∈ pathUp mb.par N := fun i => by rw [hJ.path_eq, List.mem_reverse]
  unfold ikCols MultiBody.jacCols
  refine pathCols_diff _ (fun x a => ?_) _ _
  refine DiffPT.mulMotion (DiffPT.mul ?_ (spread_posAt_diff wf hax hpa q _).inv) _
  exact ⟨.const _, ((DiffPT.const _).mul (spread_posAt_diff wf hax hpa q N)).r⟩
end
end RBDyn
