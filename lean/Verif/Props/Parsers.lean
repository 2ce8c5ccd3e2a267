import Verif.Lemmas.YAML
import Verif.Lemmas.Sample

/-! Properties C46, C49 and C50: reading robot descriptions. -/

namespace RBDyn
open scoped Mat3
variable {K : Type}

/-! ### C50 -/

/-- The path already says how to find the file. -/
def HasScheme (p : String) : Prop := (∃ rest, p = "package://" ++ rest) ∨ ∃ rest, p = "file://" ++ rest

private theorem isPrefixOf_iff (a p : String) : a.toList.isPrefixOf p.toList = true ↔ ∃ rest, p = a ++ rest := by
  rw [List.isPrefixOf_iff_prefix]
  constructor
  · rintro ⟨t, e⟩
    exact ⟨String.ofList t, by rw [← String.toList_inj, String.toList_append, String.toList_ofList, e]⟩
  · rintro ⟨rest, rfl⟩
    exact ⟨rest.toList, by rw [String.toList_append]⟩

private theorem prefixPath_cases (p : String) :
    (HasScheme p ∧ prefixPath p = p) ∨ (¬ HasScheme p ∧ prefixPath p = "file://" ++ p) := by
  unfold prefixPath HasScheme
  rw [← isPrefixOf_iff, ← isPrefixOf_iff]
  generalize "package://".toList.isPrefixOf p.toList = a
  generalize "file://".toList.isPrefixOf p.toList = b
  cases a <;> cases b <;> simp

/-- **C50**. `prefix_path` leaves a prefixed path alone, always returns a prefixed path, is idempotent, and never changes
the path itself: it adds `file://` in front or nothing at all. -/
theorem C50_prefix_path (p : String) :
    (HasScheme p → prefixPath p = p) ∧
    HasScheme (prefixPath p) ∧
    prefixPath (prefixPath p) = prefixPath p ∧
    (¬ HasScheme p → prefixPath p = "file://" ++ p) := by
  have hs : HasScheme (prefixPath p) := by
    rcases prefixPath_cases p with ⟨h, e⟩ | ⟨h, e⟩
    · rw [e]; exact h
    · rw [e]; exact Or.inr ⟨p, rfl⟩
  refine ⟨?_, hs, ?_, ?_⟩
  · intro h
    rcases prefixPath_cases p with ⟨_, e⟩ | ⟨h', _⟩
    · exact e
    · exact absurd h h'
  · rcases prefixPath_cases (prefixPath p) with ⟨_, e⟩ | ⟨h', _⟩
    · exact e
    · exact absurd hs h'
  · intro h
    rcases prefixPath_cases p with ⟨h', _⟩ | ⟨_, e⟩
    · exact absurd h' h
    · exact e

example : HasScheme "package://robot/base.stl" ∧ ¬ HasScheme "meshes/file://base.stl" := by
  refine ⟨Or.inl ⟨"robot/base.stl", by decide +kernel⟩, ?_⟩
  unfold HasScheme
  rw [← isPrefixOf_iff, ← isPrefixOf_iff]
  decide +kernel

/-! ### C49 -/

/-- **C49** is false: URDF composes the three rotations in the opposite order. Roll and pitch of a quarter turn. -/
theorem C49_not_same_rotation : urdfRPY (Real.pi / 2) (Real.pi / 2) 0 ≠ yamlRPY (Real.pi / 2) (Real.pi / 2) 0 := by
  intro h
  have := congrArg Mat3.m01 h
  simp [urdfRPY, yamlRPY, angleAxis, Mat3.tr, Scalar.cos, Scalar.sin] at this

/-- The part of C49 that holds: the two readers agree when at most one of the three angles is not a multiple of a turn.
Conversely if they agree one of the three angles is a multiple of a half turn, so for almost all angles they differ. -/
theorem C49_rpy_partial [Scalar K] (r p y : K) :
    ((Scalar.cos r = 1 ∧ Scalar.cos p = 1 ∨ Scalar.cos r = 1 ∧ Scalar.cos y = 1 ∨ Scalar.cos p = 1 ∧ Scalar.cos y = 1) →
      urdfRPY r p y = yamlRPY r p y) ∧
    (urdfRPY r p y = yamlRPY r p y → Scalar.sin r = 0 ∨ Scalar.sin p = 0 ∨ Scalar.sin y = 0) := by
  have hs : ∀ a : K, Scalar.cos a = 1 → Scalar.sin a = 0 := by
    intro a h
    have := Scalar.cos_sq_add_sin_sq a
    rw [h] at this
    have h2 : Scalar.sin a ^ 2 = 0 := by linear_combination this
    exact pow_eq_zero_iff (by norm_num) |>.1 h2
  constructor
  · rintro (⟨h1, h2⟩ | ⟨h1, h2⟩ | ⟨h1, h2⟩) <;>
    · ext <;> simp [urdfRPY, yamlRPY, angleAxis, Mat3.tr, h1, h2, hs _ h1, hs _ h2]
  · intro h
    have h11 := congrArg Mat3.m11 h
    simp [urdfRPY, yamlRPY, angleAxis, Mat3.tr] at h11
    have : Scalar.sin r * Scalar.sin p * Scalar.sin y = 0 := by linear_combination h11 / 2
    rcases mul_eq_zero.1 this with h | h
    · rcases mul_eq_zero.1 h with h | h
      · exact Or.inl h
      · exact Or.inr (Or.inl h)
    · exact Or.inr (Or.inr h)

private theorem yamlRPY_entries [Scalar K] (r p y : K) : yamlRPY r p y =
    (⟨Scalar.cos p * Scalar.cos y, -(Scalar.cos p * Scalar.sin y), Scalar.sin p,
      Scalar.cos r * Scalar.sin y + Scalar.sin r * Scalar.sin p * Scalar.cos y,
      Scalar.cos r * Scalar.cos y - Scalar.sin r * Scalar.sin p * Scalar.sin y, -(Scalar.sin r * Scalar.cos p),
      Scalar.sin r * Scalar.sin y - Scalar.cos r * Scalar.sin p * Scalar.cos y,
      Scalar.sin r * Scalar.cos y + Scalar.cos r * Scalar.sin p * Scalar.sin y, Scalar.cos r * Scalar.cos p⟩ : Mat3 K).tr := by
  ext <;> simp [yamlRPY, angleAxis, Mat3.tr] <;> ring

/-- **C49**, exactly: the two readers give the same rotation iff two of the three angles are the same half turn or full turn (up to turns). -/
theorem C49_rpy_iff [Scalar K] (r p y : K) :
    urdfRPY r p y = yamlRPY r p y ↔
      (Scalar.sin r = 0 ∧ Scalar.sin p = 0 ∧ Scalar.cos r = Scalar.cos p) ∨
      (Scalar.sin p = 0 ∧ Scalar.sin y = 0 ∧ Scalar.cos p = Scalar.cos y) ∨
      (Scalar.sin r = 0 ∧ Scalar.sin y = 0 ∧ Scalar.cos r = Scalar.cos y) := by
  have ha := Scalar.cos_sq_add_sin_sq r
  have hb := Scalar.cos_sq_add_sin_sq p
  have hc := Scalar.cos_sq_add_sin_sq y
  rw [yamlRPY_entries]
  unfold urdfRPY
  dsimp only [Mat3.tr]
  rw [Mat3.mk.injEq]
  generalize Scalar.sin r = sa at *
  generalize Scalar.sin p = sb at *
  generalize Scalar.sin y = sc at *
  generalize Scalar.cos r = ca at *
  generalize Scalar.cos p = cb at *
  generalize Scalar.cos y = cc at *
  have one : ∀ {c s : K}, c * c + s * s = 1 → s = 0 → c = 1 ∨ c = -1 := by
    rintro c s h rfl
    exact mul_self_eq_one_iff.1 (by linear_combination h)
  constructor
  · rintro ⟨_, h01, h02, h10, h11, h12, h20, h21, _⟩
    have e1 : sa * sc = 0 := by linear_combination (h20 - h02) / 2
    have e2 : sb * (1 - ca * cc) = 0 := by linear_combination -(h20 + h02) / 2
    have e3 : sa * sb * cc = 0 := by linear_combination (h10 - h01) / 2
    have e4 : sc * (cb - ca) = 0 := by linear_combination (h01 + h10) / 2
    have e5 : ca * sb * sc = 0 := by linear_combination (h21 - h12) / 2
    have e6 : sa * (cb - cc) = 0 := by linear_combination (h12 + h21) / 2
    by_cases za : sa = 0
    · by_cases zc : sc = 0
      · rcases mul_eq_zero.1 e2 with zb | z
        · rcases one ha za with h1 | h1 <;> rcases one hb zb with h2 | h2 <;> rcases one hc zc with h3 | h3 <;>
            simp [za, zb, zc, h1, h2, h3]
        · refine .inr (.inr ⟨za, zc, ?_⟩)
          rcases one ha za with h1 | h1 <;> rcases one hc zc with h3 | h3 <;> rw [h1, h3] at z <;> rw [h1, h3]
          · exfalso; norm_num at z
          · exfalso; norm_num at z
      · have zb : sb = 0 := by
          rcases mul_eq_zero.1 e5 with h | h
          · rcases mul_eq_zero.1 h with h | h
            · rcases one ha za with h1 | h1 <;> rw [h1] at h <;> norm_num at h
            · exact h
          · exact absurd h zc
        exact .inl ⟨za, zb, (sub_eq_zero.1 ((mul_eq_zero.1 e4).resolve_left zc)).symm⟩
    · have zc : sc = 0 := (mul_eq_zero.1 e1).resolve_left za
      have zb : sb = 0 := by
        rcases mul_eq_zero.1 e3 with h | h
        · exact (mul_eq_zero.1 h).resolve_left za
        · rcases one hc zc with h1 | h1 <;> rw [h1] at h <;> norm_num at h
      exact .inr (.inl ⟨zb, zc, sub_eq_zero.1 ((mul_eq_zero.1 e6).resolve_left za)⟩)
  · rintro (⟨rfl, rfl, rfl⟩ | ⟨rfl, rfl, rfl⟩ | ⟨rfl, rfl, rfl⟩) <;> refine ⟨?_, ?_, ?_, ?_, ?_, ?_, ?_, ?_, ?_⟩ <;> grind

/-- Both parts have instances. -/
example : (Scalar.cos (0 : ℚ) = 1 ∧ Scalar.cos (0 : ℚ) = 1) ∧ Scalar.cos (1 : ℚ) ≠ 1 ∧
    urdfRPY (0 : ℚ) 0 1 = yamlRPY 0 0 1 ∧ urdfRPY (0 : ℚ) 0 1 ≠ 1 := by decide +kernel

/-! ### C46 -/

/-- The parsed robot has exactly these links and these joints: in the graph, in this order; the multibody has no others
(a body that is not connected to the base link is not in it). -/
structure PResult.Shows [Scalar K] (r : PResult K) (links : List String) (joints : List (String × JointType)) : Prop where
  nodes : r.graph.nodes.map (fun p => (r.heap.nodes[p]?).map (fun n => n.body.name)) = links.map some
  jointsEq : r.graph.joints.map (fun p => (r.heap.joints[p]?).map (fun j => (j.name, j.type))) = joints.map some
  arcs : ∀ p ∈ r.graph.nodes, ∀ n, r.heap.nodes[p]? = some n → ∀ a ∈ n.arcs, (a.joint.name, a.joint.type) ∈ joints
  bodies : ∀ b ∈ r.mb.bodies, b.name ∈ links
  mbJoints : ∀ j ∈ r.mb.joints, j.name = "Root" ∨ (j.name, j.type) ∈ joints

open Graph in
theorem PResult.shows_of_assembled [Scalar K] {env : ParserEnv K} {name base : String} {fixed : Bool} {s : PSt K}
    {r : PResult K} {bs : List (Body K)} {es : List (Edge K)} (A : Assembled bs es s.1)
    (h : finish env name base fixed s = .ok r) :
    r.Shows (bs.map Body.name) (es.map (fun e => (e.j.name, e.j.type))) := by
  unfold finish at h
  obtain ⟨mb, hmb, h⟩ := Res.bind_eq_ok.1 h
  obtain ⟨_, -, h⟩ := Res.bind_eq_ok.1 h
  obtain ⟨_, -, h⟩ := Res.bind_eq_ok.1 h
  obtain ⟨_, -, h⟩ := Res.bind_eq_ok.1 h
  obtain ⟨_, -, h⟩ := Res.bind_eq_ok.1 h
  obtain rfl := Except.ok.inj h
  have arc : ∀ n ∈ s.1.1.nodes, ∀ a ∈ n.arcs,
      (a.joint.name, a.joint.type) ∈ es.map (fun e => (e.j.name, e.j.type)) := by
    intro n hn a ha
    obtain ⟨-, i, e⟩ := A.node_mem hn
    rw [e] at ha
    obtain ⟨e, he, d, hd⟩ := mem_arcsAt ha
    rw [hd]
    exact List.mem_map.2 ⟨e, he, rfl⟩
  obtain ⟨hb, hj⟩ := makeMultiBody_mem hmb
  constructor
  · dsimp only
    rw [A.nodes]
    refine List.ext_getElem? fun i => ?_
    rw [List.getElem?_map, List.getElem?_map, List.getElem?_map]
    by_cases hi : i < bs.length
    · rw [List.getElem?_range hi, List.getElem?_eq_getElem hi]
      simp [A.cell i _ (List.getElem?_eq_getElem hi)]
    · rw [List.getElem?_eq_none (by simpa using hi), List.getElem?_eq_none (by simpa using hi)]; rfl
  · dsimp only
    rw [A.joints, A.hjoints]
    refine List.ext_getElem? fun i => ?_
    rw [List.getElem?_map, List.getElem?_map, List.getElem?_map]
    by_cases hi : i < es.length
    · rw [List.getElem?_range hi, List.getElem?_eq_getElem hi]
      simp [List.getElem?_eq_getElem hi]
    · rw [List.getElem?_eq_none (by simpa using hi), List.getElem?_eq_none (by simpa using hi)]; rfl
  · intro p _ n hn
    exact arc n (List.mem_of_getElem? hn)
  · intro b hb'
    obtain ⟨n, hn, e⟩ := hb b hb'
    rw [← e]
    exact List.mem_map.2 ⟨n.body, (A.node_mem hn).1, rfl⟩
  · intro j hj'
    rcases hj j hj' with rfl | ⟨n, hn, a, ha, rfl⟩
    · left; exact A.root
    · right; exact arc n hn a ha

/-- The link must be read: it is neither a virtual link to remove nor a filtered link to remove. -/
def XLink.Kept (params : ParserParams) (l : XLink K) : Prop :=
  (params.removeVirtual = true → l.inertial ≠ none) ∧ (params.removeFiltered = true → l.name ∉ params.filtered)

instance [DecidableEq K] (params : ParserParams) (l : XLink K) : Decidable (l.Kept params) := by
  unfold XLink.Kept; infer_instance

theorem XLink.kept_iff [Scalar K] (params : ParserParams) (l : XLink K) : l.kept params = true ↔ l.Kept params := by
  unfold XLink.kept XLink.Kept
  cases l.inertial <;> cases params.removeVirtual <;> cases params.removeFiltered <;> simp

theorem goneX_iff [Scalar K] (params : ParserParams) (L : List (XLink K)) (n : String) :
    goneX params L n = false ↔ ∀ l ∈ L, l.name = n → l.Kept params := by
  unfold goneX
  rw [List.any_eq_false]
  refine forall₂_congr fun l _ => ?_
  simp only [Bool.and_eq_true, Bool.not_eq_true', decide_eq_true_eq, not_and, ← XLink.kept_iff]
  cases l.kept params <;> simp

/-- The joint of an URDF type; `sph` says that the name of the joint ends with the suffix of the spherical joints. Every
other type is read as a fixed joint, even `planar`, which URDF and the library have. -/
def declaredURDF (type : String) (sph : Bool) : JointType :=
  match type with
  | "revolute" | "continuous" => .Rev
  | "prismatic" => .Prism
  | "floating" => if sph then .Spherical else .Free
  | "ball" => .Spherical
  | _ => .Fixed

theorem urdfJointType_eq (t : String) (sph : Bool) : urdfJointType t sph = declaredURDF t sph := by
  unfold declaredURDF
  split
  case h_6 h1 h2 h3 h4 h5 =>
    unfold urdfJointType
    rw [if_neg h1, if_neg h3, if_neg h2, if_neg h4, if_neg h5]
  all_goals rfl

/-- **C46** for URDF. A robot read from a document has exactly the links that are not removed, and exactly the joints
between two of them, in the order of the document. In keep mode the joints whose child is filtered are fixed, the others
have the type of the document. -/
theorem C46_urdf_links_and_joints [Scalar K] {env : ParserEnv K} {params : ParserParams} {robot : XRobot K}
    {r : PResult K} (h : fromURDF env (some robot) params = .ok r) :
    r.Shows ((robot.links.filter (fun l => decide (l.Kept params))).map XLink.name)
      ((robot.joints.filter (fun j => decide (∀ l ∈ robot.links, l.name = j.parent ∨ l.name = j.child → l.Kept params))).map
        (fun j => (j.name, if j.child ∈ params.filtered then .Fixed
          else declaredURDF j.type (hasSuffix j.name params.sphericalSuffix)))) := by
  unfold fromURDF at h
  obtain ⟨⟨name, base, s⟩, hp, hf⟩ := Res.bind_eq_ok.1 h
  dsimp only at hf
  obtain ⟨-, -, bs, es, hbs, hes, hA, -⟩ := (parseURDF_iff ..).1 hp
  have A := Graph.assembled_of_ok hA
  have hn : bs.map Body.name = (robot.links.filter (fun l => decide (l.Kept params))).map XLink.name := by
    rw [forall₂_map hbs (fun x y h => urdfBody_name h)]
    congr 1
    refine List.filter_congr fun l _ => ?_
    rw [Bool.eq_iff_iff, XLink.kept_iff]; simp
  have hj : (es.map Prod.fst).map (fun e => (e.j.name, e.j.type)) =
      (robot.joints.filter (fun j => decide (∀ l ∈ robot.links, l.name = j.parent ∨ l.name = j.child → l.Kept params))).map
        (fun j => (j.name, if j.child ∈ params.filtered then .Fixed
          else declaredURDF j.type (hasSuffix j.name params.sphericalSuffix))) := by
    rw [List.map_map]
    have h1 : es.map ((fun e : Graph.Edge K => (e.j.name, e.j.type)) ∘ Prod.fst) =
        (readJointsX params robot.links robot.joints).map
          (fun j => (j.name, urdfJointType j.type (hasSuffix j.name params.sphericalSuffix))) := by
      refine forall₂_map hes (fun x y h => ?_)
      obtain ⟨-, -, -, e, -⟩ := urdfEdge_spec h
      simp only [Function.comp, e, urdfJoint_name, urdfJoint_type]
    have hc : ∀ j ∈ readJointsX params robot.links robot.joints, j.child ∈ bs.map Body.name := by
      intro j hj
      obtain ⟨e, he, h⟩ := forall₂_exists hes j hj
      have := (A.known e.1 (List.mem_map.2 ⟨e, he, rfl⟩)).2
      rwa [(urdfEdge_spec h).2.2.1] at this
    rw [h1]
    unfold readJointsX at hc ⊢
    rw [List.map_map]
    have hfil : robot.joints.filter (fun j => !goneX params robot.links j.parent && !goneX params robot.links j.child) =
        robot.joints.filter (fun j => decide (∀ l ∈ robot.links, l.name = j.parent ∨ l.name = j.child → l.Kept params)) := by
      refine List.filter_congr fun j _ => ?_
      rw [Bool.eq_iff_iff, Bool.and_eq_true, Bool.not_eq_true', Bool.not_eq_true', goneX_iff, goneX_iff,
        decide_eq_true_iff]
      constructor
      · rintro ⟨h1, h2⟩ l hl (e | e)
        · exact h1 l hl e
        · exact h2 l hl e
      · intro h
        exact ⟨fun l hl e => h l hl (Or.inl e), fun l hl e => h l hl (Or.inr e)⟩
    rw [hfil] at hc ⊢
    refine List.map_congr_left fun j hj => ?_
    have hch := hc _ (List.mem_map_of_mem hj)
    have hch : j.child ∈ bs.map Body.name := by
      split at hch <;> exact hch
    rw [hn] at hch
    obtain ⟨l, hl, e⟩ := List.mem_map.1 hch
    rw [List.mem_filter, decide_eq_true_iff] at hl
    have hx : fixedX params robot.links j.child = true ↔ j.child ∈ params.filtered := by
      unfold fixedX
      rw [List.any_eq_true]
      constructor
      · rintro ⟨x, -, hx⟩
        simp only [Bool.and_eq_true, decide_eq_true_eq] at hx
        exact hx.2
      · intro hx
        refine ⟨l, hl.1, ?_⟩
        simp only [Bool.and_eq_true, decide_eq_true_eq]
        exact ⟨⟨(XLink.kept_iff ..).2 hl.2, e⟩, hx⟩
    by_cases hm : j.child ∈ params.filtered
    · simp only [Function.comp]
      rw [if_pos (hx.2 hm), if_pos hm]
      rfl
    · simp only [Function.comp]
      rw [if_neg (fun h => hm (hx.1 h)), if_neg hm, urdfJointType_eq]
  rw [← hn, ← hj]
  exact PResult.shows_of_assembled A hf

/-- An environment for the examples. -/
def Sample.env : ParserEnv ℚ := ⟨id, fun _ => 0, id, 0, 1, Sample.junk⟩

/-- A robot with a virtual link `tip`, a filtered link `b` and the child `c` of `b`. -/
def Sample.urdf : XRobot ℚ :=
  let i : Option (XInertial ℚ) := some ⟨none, some (some 2), some ⟨some 1, none, none, some 1, none, some 1⟩⟩
  { name := some "r"
    links := [⟨"base", i⟩, ⟨"a", i⟩, ⟨"tip", none⟩, ⟨"b", i⟩, ⟨"c", i⟩]
    joints := [⟨"j1", "revolute", "base", "a", some ⟨some [1, 0, 0], some [0, 0, 1]⟩, some (some [0, 1, 0]), none, none⟩,
      ⟨"j2", "fixed", "a", "tip", none, none, none, none⟩, ⟨"j3", "prismatic", "a", "b", none, none, none, none⟩,
      ⟨"j4", "continuous", "b", "c", none, none, none, none⟩] }

/-- Both documents are read; removing `b` removes `j3` and `j4`; keeping it fixes `j3`. -/
example :
    (match fromURDF Sample.env (some Sample.urdf) { filtered := ["b"], removeVirtual := true } with
      | .ok r => decide (r.mb.bodies.map Body.name = ["base", "a"]) && decide (r.heap.joints.map Joint.name = ["j1"])
      | .error _ => false) = true ∧
    (match fromURDF Sample.env (some Sample.urdf) { filtered := ["b"], removeFiltered := false } with
      | .ok r => decide (r.mb.bodies.map Body.name = ["base", "a", "tip", "b", "c"]) &&
          decide (r.mb.joints.map Joint.type = [.Fixed, .Rev, .Fixed, .Fixed, .Rev])
      | .error _ => false) = true := by decide +kernel

/-- The link must be read: it is neither a virtual link to remove nor a filtered link to remove. -/
def NLink.Kept (params : ParserParams) (l : NLink K) : Prop :=
  (params.removeVirtual = true → l.inertial ≠ none) ∧ (params.removeFiltered = true → l.name ∉ params.filtered)

instance [DecidableEq K] (params : ParserParams) (l : NLink K) : Decidable (l.Kept params) := by
  unfold NLink.Kept; infer_instance

theorem NLink.kept_iff [Scalar K] (params : ParserParams) (l : NLink K) : l.kept params = true ↔ l.Kept params := by
  unfold NLink.kept NLink.Kept
  cases l.inertial <;> cases params.removeVirtual <;> cases params.removeFiltered <;> simp

theorem goneY_iff [Scalar K] (params : ParserParams) (L : List (YLink K)) (n : String) :
    goneY params L n = false ↔ ∀ l ∈ nameLinks params 1 L, l.name = n → l.Kept params := by
  unfold goneY
  rw [List.any_eq_false]
  refine forall₂_congr fun l _ => ?_
  simp only [Bool.and_eq_true, Bool.not_eq_true', decide_eq_true_eq, not_and, ← NLink.kept_iff]
  cases l.kept params <;> simp

/-- The joint of a YAML type, or an error for an unknown type (`planar` is one). -/
def declaredYAML (type : Option String) (sph : Bool) : Option JointType :=
  match type with
  | none | some "revolute" | some "continuous" => some .Rev
  | some "prismatic" => some .Prism
  | some "floating" => some (if sph then .Spherical else .Free)
  | some "spherical" | some "ball" => some .Spherical
  | some "free" => some .Free
  | some "fixed" => some .Fixed
  | _ => none

theorem yamlType_eq {params : ParserParams} {t : Option String} {name : String} {tc : JointType × Bool}
    (h : yamlType params t name false = .ok tc) :
    some tc.1 = declaredYAML t (hasSuffix name params.sphericalSuffix) := by
  unfold yamlType at h
  rw [if_neg (by simp)] at h
  generalize hasSuffix name params.sphericalSuffix = b at h ⊢
  cases t with
  | none => rw [← Except.ok.inj h]; rfl
  | some t =>
    dsimp only at h
    obtain ⟨jt, hjt, h⟩ := Res.bind_eq_ok.1 h
    rw [← Except.ok.inj h]
    dsimp only
    by_cases hf : t = "floating"
    · subst hf
      rw [if_pos rfl] at hjt
      cases b
      · rw [← Except.ok.inj hjt]; rfl
      · rw [← Except.ok.inj hjt]; rfl
    · rw [if_neg hf] at hjt
      unfold yamlTypeTable at hjt
      split at hjt
      · rename_i e; subst e; rw [← Except.ok.inj hjt]; rfl
      split at hjt
      · rename_i e; subst e; rw [← Except.ok.inj hjt]; rfl
      split at hjt
      · rename_i e; subst e; rw [← Except.ok.inj hjt]; rfl
      split at hjt
      · rename_i e; subst e; rw [← Except.ok.inj hjt]; rfl
      split at hjt
      · rename_i e; subst e; rw [← Except.ok.inj hjt]; rfl
      split at hjt
      · rename_i e; subst e; rw [← Except.ok.inj hjt]; rfl
      split at hjt
      · rename_i e; subst e; rw [← Except.ok.inj hjt]; rfl
      · cases hjt

/-- **C46** for YAML. The same as for URDF; elements without a name get the default names (`nameLinks`, `nameJoints`),
and the type of every joint whose child is not filtered is one of the known types. -/
theorem C46_yaml_links_and_joints [Scalar K] {env : ParserEnv K} {params : ParserParams} {robot : YRobot K}
    {r : PResult K} (h : fromYAML env (some robot) params = .ok r) :
    ∃ L J joints, robot.links = some L ∧ robot.joints = some J ∧
      r.Shows (((nameLinks params 1 L).filter (fun l => decide (l.Kept params))).map NLink.name) joints ∧
      joints.map (fun x => (x.1, some x.2)) =
        ((nameJoints (goneY params L) 1 J).filter
            (fun j => decide (∀ l ∈ nameLinks params 1 L, l.name = j.parent ∨ l.name = j.child → l.Kept params))).map
          (fun j => (j.name, if j.child ∈ params.filtered then some .Fixed
            else declaredYAML j.j.type (hasSuffix j.name params.sphericalSuffix))) := by
  unfold fromYAML at h
  obtain ⟨⟨name, base, s⟩, hp, hf⟩ := Res.bind_eq_ok.1 h
  dsimp only at hf
  obtain ⟨-, L, d, J, hL, -, hJ, -, bs, es, hbs, hes, hA, -⟩ := (parseYAML_iff ..).1 hp
  have A := Graph.assembled_of_ok hA
  have hn : bs.map Body.name = ((nameLinks params 1 L).filter (fun l => decide (l.Kept params))).map NLink.name := by
    rw [forall₂_map hbs (fun x y h => yamlBody_name h)]
    congr 1
    refine List.filter_congr fun l _ => ?_
    rw [Bool.eq_iff_iff, NLink.kept_iff]; simp
  refine ⟨L, J, (es.map Prod.fst).map (fun e => (e.j.name, e.j.type)), hL, hJ, ?_, ?_⟩
  · rw [← hn]
    exact PResult.shows_of_assembled A hf
  · rw [List.map_map, List.map_map]
    have hfil : readJointsY params L J = (nameJoints (goneY params L) 1 J).filter
        (fun j => decide (∀ l ∈ nameLinks params 1 L, l.name = j.parent ∨ l.name = j.child → l.Kept params)) := by
      unfold readJointsY
      refine List.filter_congr fun j _ => ?_
      rw [Bool.eq_iff_iff, Bool.not_eq_true', Bool.or_eq_false_iff, goneY_iff, goneY_iff, decide_eq_true_iff]
      constructor
      · rintro ⟨h1, h2⟩ l hl (e | e)
        · exact h2 l hl e
        · exact h1 l hl e
      · intro h
        exact ⟨fun l hl e => h l hl (Or.inr e), fun l hl e => h l hl (Or.inl e)⟩
    rw [← hfil]
    have hkn : ∀ e ∈ es, e.1.child ∈ bs.map Body.name := fun e he => (A.known e.1 (List.mem_map.2 ⟨e, he, rfl⟩)).2
    have hes' : List.Forall₂ (fun j e => yamlEdge env params d (fixedY params L) j = .ok e ∧
        e.1.child ∈ bs.map Body.name) (readJointsY params L J) es := by
      clear hA A hfil
      revert hkn
      generalize readJointsY params L J = js at hes
      induction hes with
      | nil => intro _; exact .nil
      | cons h _ ih =>
        intro hk
        exact .cons ⟨h, hk _ (List.mem_cons_self ..)⟩ (ih (fun e he => hk e (List.mem_cons_of_mem _ he)))
    refine forall₂_map hes' (fun j e h => ?_)
    obtain ⟨tc, axis, f, h1, -, -, he, -⟩ := yamlEdge_spec h.1
    have hch := h.2
    simp only [Function.comp, he] at hch ⊢
    rw [hn] at hch
    obtain ⟨l, hl, el⟩ := List.mem_map.1 hch
    rw [List.mem_filter, decide_eq_true_iff] at hl
    have hx : fixedY params L j.child = true ↔ j.child ∈ params.filtered := by
      unfold fixedY
      rw [List.any_eq_true]
      constructor
      · rintro ⟨x, -, hx⟩
        simp only [Bool.and_eq_true, decide_eq_true_eq] at hx
        exact hx.2
      · intro hx
        refine ⟨l, List.mem_filter.2 ⟨hl.1, (NLink.kept_iff ..).2 hl.2⟩, ?_⟩
        simp only [Bool.and_eq_true, decide_eq_true_eq]
        exact ⟨el, hx⟩
    by_cases hm : j.child ∈ params.filtered
    · rw [hx.2 hm] at h1
      rw [if_pos hm]
      rw [← Except.ok.inj h1]
      rfl
    · rw [Bool.eq_false_iff.2 (fun h => hm (hx.1 h))] at h1
      rw [if_neg hm, ← yamlType_eq h1]
      rfl

/-- A robot whose links and joints use the default names. -/
def Sample.yaml : YRobot ℚ :=
  let i : Option (YInertial ℚ) := some ⟨some 2, none, none⟩
  { name := some "r"
    degrees := some false
    links := some [⟨none, i⟩, ⟨some "tip", none⟩, ⟨none, i⟩, ⟨none, i⟩]
    joints := some [⟨none, none, none, none, none, some ⟨some [1, 0, 0], some [0, 0, 1], none⟩, none⟩,
      ⟨some "jt", some "link1", some "tip", some "fixed", none, none, none⟩,
      ⟨none, none, none, some "prismatic", some [1, 0, 0], none, none⟩] }

example :
    (match fromYAML Sample.env (some Sample.yaml) { removeVirtual := true } with
      | .ok r => decide (r.mb.bodies.map Body.name = ["link1", "link2", "link3"]) &&
          decide (r.heap.joints.map Joint.name = ["joint1", "joint2"]) &&
          decide (r.mb.joints.map Joint.type = [.Fixed, .Rev, .Prism])
      | .error _ => false) = true ∧
    (match fromYAML Sample.env (some Sample.yaml) { filtered := ["link2"], removeFiltered := false, removeVirtual := true } with
      | .ok r => decide (r.mb.joints.map Joint.type = [.Fixed, .Fixed, .Prism])
      | .error _ => false) = true := by decide +kernel

end RBDyn
