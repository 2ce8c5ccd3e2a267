import Verif.Lemmas.TreeRead
import Verif.Lemmas.RoundTrip
import Verif.Props.Parsers

/-! Property C55: every description of a tree is read, and the robot is the one described. -/

namespace RBDyn
open Graph
open scoped Mat3
variable {K : Type} [Scalar K]

/-! ### What a document describes -/

omit [Scalar K] in
/-- The vector of an attribute, zero by default. -/
def describedVec [Zero K] (l : Option (List K)) : Vec3 K :=
  match l with
  | some [x, y, z] => ⟨x, y, z⟩
  | _ => 0

/-- The inertia with respect to the origin of the link of a body of mass `m`, centre of mass `c` and inertia matrix `J`
about the centre of mass (parallel axis theorem). -/
def describedInertia (m : K) (c : Vec3 K) (xx xy xz yy yz zz : K) : RBInertia K :=
  ⟨m, ⟨m * c.x, m * c.y, m * c.z⟩,
    { xx := xx + m * (c.y ^ 2 + c.z ^ 2), yx := xy - m * c.x * c.y, yy := yy + m * (c.x ^ 2 + c.z ^ 2)
      zx := xz - m * c.x * c.z, zy := yz - m * c.y * c.z, zz := zz + m * (c.x ^ 2 + c.y ^ 2) }⟩

/-- The body a `<link>` describes. -/
def XLink.described (l : XLink K) : Body K :=
  match l.inertial with
  | none => ⟨⟨0, 0, 0⟩, l.name⟩
  | some i =>
    let c := describedVec (i.origin.bind XOrigin.xyz)
    let m := (i.mass.getD none).getD 0
    let J := i.inertia.getD ⟨none, none, none, none, none, none⟩
    ⟨describedInertia m c (J.ixx.getD 0) (J.ixy.getD 0) (J.ixz.getD 0) (J.iyy.getD 0) (J.iyz.getD 0) (J.izz.getD 0),
      l.name⟩

/-- The element can be read: the mass and the inertia are there, and the inertia is given in the frame of the link. -/
def XLink.Readable (l : XLink K) : Prop :=
  ∀ i, l.inertial = some i → i.mass ≠ none ∧ i.inertia ≠ none ∧ ∀ o, i.origin = some o → o.rpy = none

/-- The transform an `<origin>` describes: the rotation is about the fixed axes `x`, `y`, `z` in this order. The matrix
of a transform takes coordinates to the child. -/
def describedOrigin (o : Option (XOrigin K)) : PTransform K :=
  let rpy := describedVec (o.bind XOrigin.rpy)
  ⟨(angleAxis rpy.z ⟨0, 0, 1⟩ * angleAxis rpy.y ⟨0, 1, 0⟩ * angleAxis rpy.x ⟨1, 0, 0⟩).tr,
    describedVec (o.bind XOrigin.xyz)⟩

/-- The joint a `<joint>` describes, with the suffix of the names of the spherical joints. -/
def XJoint.described (norm : Vec3 K → Vec3 K) (suffix : String) (j : XJoint K) : Edge K :=
  let type := declaredURDF j.type (suffix.toList.isSuffixOf j.name.toList)
  let axis := match j.axis with
    | none => ⟨0, 0, 1⟩
    | some a => norm (describedVec a)
  let jt := Joint.mk' type axis true j.name
  ⟨j.parent, j.child, describedOrigin j.origin,
    match j.mimic with
    | some m => if type = .Fixed then jt else jt.makeMimic m.joint (m.multiplier.getD 1) (m.offset.getD 0)
    | none => jt⟩

/-- The element can be read: the angles of the origin, if any, are three numbers. -/
def XJoint.Readable (j : XJoint K) : Prop := ∀ o, j.origin = some o → ∀ v, o.rpy = some v → v.length = 3

/-! ### The readers -/

private theorem ofCom_described (m : K) (c : Vec3 K) (A : Mat3 K) (n : String) :
    Body.ofCom m c (inertiaToOrigin A m c 1) n =
      ⟨describedInertia m c A.m00 A.m10 A.m20 A.m11 A.m21 A.m22, n⟩ := by
  unfold Body.ofCom RBInertia.ofMat describedInertia
  congr 2
  ext <;> simp [Sym3.ofLower, inertiaToOrigin, Mat3.tr, Mat3.crossMat] <;> ring

private theorem urdfBody_described {params : ParserParams} (hp : params.transformInertia = true) {l : XLink K}
    (h : l.Readable) : urdfBody params l = .ok l.described := by
  unfold urdfBody XLink.described
  cases hi : l.inertial with
  | none => dsimp only; rw [Body.ofCom_zero]
  | some i =>
    obtain ⟨h1, h2, h3⟩ := h i hi
    obtain ⟨m, hm⟩ := Option.ne_none_iff_exists'.1 h1
    obtain ⟨J, hJ⟩ := Option.ne_none_iff_exists'.1 h2
    dsimp only
    rw [hm, hJ, hp]
    cases ho : i.origin with
    | none =>
      show Except.ok _ = _
      rw [urdfRPY_zero]
      simp only [if_true, Option.getD_some]
      congr 1
      exact ofCom_described _ _ (readInertia J) l.name
    | some o =>
      dsimp only
      rw [h3 o ho]
      show Except.ok _ = _
      rw [urdfRPY_zero]
      simp only [if_true, Option.getD_some]
      congr 1
      exact ofCom_described _ _ (readInertia J) l.name

private theorem urdfRPY_eq (r p y : K) :
    urdfRPY r p y = (angleAxis y ⟨0, 0, 1⟩ * angleAxis p ⟨0, 1, 0⟩ * angleAxis r ⟨1, 0, 0⟩).tr := by
  ext <;> simp [urdfRPY, angleAxis, Mat3.tr] <;> ring

/-- The reader of origins gives the transform described. -/
theorem urdfOrigin_described {o : Option (XOrigin K)} (h : ∀ x, o = some x → ∀ v, x.rpy = some v → v.length = 3) :
    urdfOrigin o = .ok (describedOrigin o) := by
  unfold urdfOrigin describedOrigin
  cases ho : o with
  | none =>
    dsimp only
    have : (angleAxis (0 : K) ⟨0, 0, 1⟩ * angleAxis (0 : K) ⟨0, 1, 0⟩ * angleAxis (0 : K) ⟨1, 0, 0⟩).tr = 1 := by
      rw [← urdfRPY_eq, urdfRPY_zero]
    show _ = Except.ok (⟨(angleAxis (0 : K) ⟨0, 0, 1⟩ * angleAxis (0 : K) ⟨0, 1, 0⟩ * angleAxis (0 : K) ⟨1, 0, 0⟩).tr, 0⟩ : PTransform K)
    rw [this]; rfl
  | some x =>
    dsimp only
    have : urdfRPYList (x.rpy.getD [0, 0, 0]) = .ok (urdfRPY (describedVec x.rpy).x (describedVec x.rpy).y
        (describedVec x.rpy).z) := by
      cases hr : x.rpy with
      | none => rfl
      | some v =>
        have := h x ho v hr
        obtain ⟨a, b, c, rfl⟩ := List.length_eq_three.1 this
        rfl
    rw [this, Res.bind_ok, urdfRPY_eq]
    rfl

private theorem urdfEdge_described {env : ParserEnv K} {params : ParserParams} {j : XJoint K} (h : j.Readable) :
    urdfEdge env params j = .ok (j.described env.normalized params.sphericalSuffix,
      urdfLimits j (urdfJoint env params j)) := by
  have hX : urdfOrigin j.origin = .ok (describedOrigin j.origin) := urdfOrigin_described h
  have hJ : urdfJoint env params j = (j.described env.normalized params.sphericalSuffix).j := by
    unfold urdfJoint XJoint.described
    dsimp only
    rw [← urdfJointType_eq]
    cases j.axis <;> cases j.mimic with
    | none => rfl
    | some m =>
      dsimp only
      by_cases ht : urdfJointType j.type (hasSuffix j.name params.sphericalSuffix) = .Fixed
      · rw [if_neg (by rw [not_not]; exact ht)]
        unfold hasSuffix at ht
        rw [if_pos ht]
        rfl
      · rw [if_pos (by exact ht)]
        unfold hasSuffix at ht
        rw [if_neg ht]
        rfl
  unfold urdfEdge
  rw [hX, Res.bind_ok]
  show Except.ok _ = _
  congr 1
  rw [hJ]
  rfl

private theorem kept_of_none {params : ParserParams} (hf : params.filtered = []) (hv : params.removeVirtual = false)
    (l : XLink K) : l.kept params = true := by
  unfold XLink.kept
  simp [hf, hv]

/-- **C55** for URDF. Without filter, every document whose links and joints have different names, can be read and make a
tree of root the base link, is read. The bodies of the robot are the links, its joints are the root joint and the joints
of the document, with the same types, axes, transforms and mimics, between the same links, in an order where the parent
comes before the child. -/
theorem C55_urdf_tree {env : ParserEnv K} {params : ParserParams} {robot : XRobot K} {name : String}
    (hf : params.filtered = []) (hv : params.removeVirtual = false) (hp : params.transformInertia = true)
    (hn : robot.name = some name) (hl : (robot.links.map XLink.name).Nodup) (hj : (robot.joints.map XJoint.name).Nodup)
    (hL : ∀ l ∈ robot.links, l.Readable) (hJ : ∀ j ∈ robot.joints, j.Readable)
    (hk : ∀ j ∈ robot.joints, j.parent ∈ robot.links.map XLink.name ∧ j.child ∈ robot.links.map XLink.name)
    (T : TreeShape (robot.links.map XLink.name) (robot.joints.map fun j => (j.parent, j.child))
      (if params.baseLink = "" then (robot.links.head?.map XLink.name).getD "" else params.baseLink)) :
    ∃ r, fromURDF env (some robot) params = .ok r ∧ r.name = name ∧
      r.Reads (robot.links.map XLink.described) (robot.joints.map (XJoint.described env.normalized params.sphericalSuffix))
        (if params.baseLink = "" then (robot.links.head?.map XLink.name).getD "" else params.baseLink) params.fixed ∧
      ((∀ j ∈ robot.joints, j.name ≠ "Root") → r.Standard env
        (if params.baseLink = "" then (robot.links.head?.map XLink.name).getD "" else params.baseLink) params.fixed) := by
  set base := (if params.baseLink = "" then (robot.links.head?.map XLink.name).getD "" else params.baseLink) with hbase
  set bs := robot.links.map XLink.described with hbs
  set es := robot.joints.map (XJoint.described env.normalized params.sphericalSuffix) with hes
  have hname : ∀ l : XLink K, l.described.name = l.name := fun l => by
    unfold XLink.described; cases l.inertial <;> rfl
  have hjname : ∀ j : XJoint K, (j.described env.normalized params.sphericalSuffix).j.name = j.name := fun j => by
    unfold XJoint.described; dsimp only; split <;> (try split) <;> rfl
  have hnames : bs.map Body.name = robot.links.map XLink.name := by
    rw [hbs, List.map_map]; exact List.map_congr_left fun l _ => hname l
  have hjn : (es.map (fun e => e.j.name)) = robot.joints.map XJoint.name := by
    rw [hes, List.map_map]; exact List.map_congr_left fun j _ => hjname j
  have hends : es.map Edge.ends = robot.joints.map fun j => (j.parent, j.child) := by
    rw [hes, List.map_map]; rfl
  obtain ⟨s, hs, A⟩ := assemble_ok (bs := bs) (es := es) (by rw [hnames]; exact hl) (by rw [hjn]; exact hj) (by
    intro e he
    rw [hes] at he
    obtain ⟨j, hjm, rfl⟩ := List.mem_map.1 he
    rw [hnames]
    exact hk j hjm)
  have hkept : robot.links.filter (XLink.kept params) = robot.links :=
    List.filter_eq_self.2 fun l _ => kept_of_none hf hv l
  have hgone : ∀ n, goneX params robot.links n = false := by
    intro n
    unfold goneX
    rw [List.any_eq_false]
    intro l _
    simp [kept_of_none hf hv l]
  have hfix : ∀ n, fixedX params robot.links n = false := by
    intro n
    unfold fixedX
    rw [List.any_eq_false]
    intro l _
    simp [hf]
  have hread : readJointsX params robot.links robot.joints = robot.joints := by
    unfold readJointsX
    simp [hgone, hfix]
  let es' : List (REdge K) := robot.joints.map fun j =>
    (j.described env.normalized params.sphericalSuffix, urdfLimits j (urdfJoint env params j))
  have hes' : es'.map Prod.fst = es := by
    simp only [es', List.map_map]; rfl
  have hp' : parseURDF env (some robot) params =
      .ok (name, base, (s, es'.foldl (fun lim e => lim.set e.1.j.name e.2) ⟨[], [], [], []⟩)) := by
    rw [parseURDF_iff]
    refine ⟨hn, ?_, bs, es', ?_, ?_, ?_, rfl⟩
    · rw [hkept]
      cases hh : robot.links with
      | nil => have := T.root; rw [hh] at this; simp at this
      | cons l t => exact ⟨l, rfl, by rw [hbase, hh]; rfl⟩
    · rw [hkept, hbs, List.forall₂_map_right_iff]
      exact List.forall₂_same.2 fun l hlm => urdfBody_described hp (hL l hlm)
    · rw [hread]
      simp only [es', List.forall₂_map_right_iff]
      exact List.forall₂_same.2 fun j hjm => urdfEdge_described (hJ j hjm)
    · rw [hes']; exact hs
  have hb : ∀ e ∈ es, e.j.Built ∧ e.j.isForward = true := by
    intro e he
    rw [hes] at he
    obtain ⟨j, -, rfl⟩ := List.mem_map.1 he
    unfold XJoint.described
    dsimp only
    generalize (match j.axis with | none => (⟨0, 0, 1⟩ : Vec3 K) | some a => env.normalized (describedVec a)) = ax
    generalize declaredURDF j.type (params.sphericalSuffix.toList.isSuffixOf j.name.toList) = t
    have hfw : (Joint.mk' t ax true j.name : Joint K).isForward = true := Joint.isForward_mk' ..
    cases j.mimic with
    | none => exact ⟨.mk _ _ _ _, hfw⟩
    | some m =>
      dsimp only
      split
      · exact ⟨.mk _ _ _ _, hfw⟩
      · exact ⟨.makeMimic _ _ _ _ (.mk _ _ _ _), hfw⟩
  obtain ⟨r, h1, h2, -, -, -, h3, h4⟩ := finish_tree (env := env) (name := name) (base := base) (fixed := params.fixed)
    (s := (s, es'.foldl (fun lim e => lim.set e.1.j.name e.2) ⟨[], [], [], []⟩)) A (by rw [hnames, hends]; exact T) hb
  refine ⟨r, ?_, h2, h3, fun hR => h4 ?_⟩
  · unfold fromURDF
    rw [hp', Res.bind_ok]
    exact h1
  · intro e he
    rw [hes] at he
    obtain ⟨j, hjm, rfl⟩ := List.mem_map.1 he
    rw [hjname]
    exact hR j hjm

/-- The document of the examples makes a tree of root `base`. -/
theorem Sample.urdf_tree : TreeShape (Sample.urdf.links.map XLink.name)
    (Sample.urdf.joints.map fun j => (j.parent, j.child)) "base" where
  root := by decide +kernel
  once := by decide +kernel
  top := by decide +kernel
  below := by decide +kernel
  rank := ⟨fun n => ["base", "a", "tip", "b", "c"].idxOf n, by decide +kernel⟩

/-- A robot with five links, and revolute, fixed, prismatic and continuous joints. -/
example : ∃ r, fromURDF Sample.env (some Sample.urdf) {} = .ok r ∧ r.name = "r" ∧
    r.Reads (Sample.urdf.links.map XLink.described)
      (Sample.urdf.joints.map (XJoint.described id "_spherical")) "base" true ∧ r.Standard Sample.env "base" true := by
  have h := C55_urdf_tree (env := Sample.env) (params := {}) (robot := Sample.urdf) rfl rfl rfl rfl
    (by decide +kernel) (by decide +kernel)
    (by
      intro l hl i hi
      have : ∀ l ∈ Sample.urdf.links, ∀ i ∈ l.inertial, i.mass ≠ none ∧ i.inertia ≠ none ∧ i.origin = none := by
        decide +kernel
      obtain ⟨h1, h2, h3⟩ := this l hl i hi
      exact ⟨h1, h2, fun o ho => by rw [h3] at ho; cases ho⟩)
    (by
      intro j hj o ho v hv
      have : ∀ j ∈ Sample.urdf.joints, ∀ o ∈ j.origin, ∀ v ∈ o.rpy, v.length = 3 := by decide +kernel
      exact this j hj o ho v hv)
    (by decide +kernel) Sample.urdf_tree
  obtain ⟨r, h1, h2, h3, h4⟩ := h
  exact ⟨r, h1, h2, h3, h4 (by decide +kernel)⟩

/-! ### YAML -/

/-- The body an element of `links` describes: without `inertia` the matrix is the identity. -/
def YLink.described (l : YLink K) : Body K :=
  match l.inertial with
  | none => ⟨⟨0, 0, 0⟩, l.name.getD ""⟩
  | some i =>
    let c := describedVec (i.frame.bind YFrame.xyz)
    let J := i.inertia.getD ⟨none, none, none, none, none, none⟩
    ⟨describedInertia (i.mass.getD 0) c (J.ixx.getD 1) (J.ixy.getD 0) (J.ixz.getD 0) (J.iyy.getD 1) (J.iyz.getD 0)
      (J.izz.getD 1), l.name.getD ""⟩

/-- The element has a name and can be read: the position of the centre of mass, if any, has three numbers, and the
inertia is given in the frame of the link. -/
def YLink.Readable (l : YLink K) : Prop :=
  l.name ≠ none ∧ ∀ i f, l.inertial = some i → i.frame = some f → (∀ v, f.xyz = some v → v.length = 3) ∧ f.rpy = none

/-- The transform a `frame` describes; the angles are in degrees (times `deg` in radians) if the frame says so, or else
if the document does. The rotation is about the moving axes `x`, `y`, `z` in this order. -/
def describedFrame (deg : K) (degrees : Bool) (f : Option (YFrame K)) : PTransform K :=
  let v := describedVec (f.bind YFrame.rpy)
  let c : K := if (f.bind YFrame.degrees).getD degrees then deg else 1
  ⟨(angleAxis (c * v.x) ⟨1, 0, 0⟩ * angleAxis (c * v.y) ⟨0, 1, 0⟩ * angleAxis (c * v.z) ⟨0, 0, 1⟩).tr,
    describedVec (f.bind YFrame.xyz)⟩

/-- The joint an element of `joints` describes. -/
def YJoint.described (deg : K) (degrees : Bool) (suffix : String) (j : YJoint K) : Edge K :=
  let name := j.name.getD ""
  let axis := match j.axis with
    | none => ⟨0, 0, 1⟩
    | some a => describedVec (some a)
  ⟨j.parent.getD "", j.child.getD "", describedFrame deg degrees j.frame,
    Joint.mk' ((declaredYAML j.type (suffix.toList.isSuffixOf name.toList)).getD .Fixed) axis true name⟩

/-- The limits can be read for a joint with `n` degrees of freedom: no sequence in a sequence, and no sequence that is
too short. -/
def YLimits.Readable (y : YLimits K) (n : Nat) : Prop :=
  ∀ x, (y.lower = some x ∨ y.upper = some x ∨ y.effort = some x ∨ y.velocity = some x) →
    x ≠ .nested ∧ ∀ l, x = .seq l → n ≤ l.length

/-- The element has names and can be read. -/
structure YJoint.Readable (suffix : String) (j : YJoint K) : Prop where
  name : j.name ≠ none
  parent : j.parent ≠ none
  child : j.child ≠ none
  type : declaredYAML j.type (suffix.toList.isSuffixOf (j.name.getD "").toList) ≠ none
  axis : ∀ v, j.axis = some v → v.length = 3
  xyz : ∀ f, j.frame = some f → ∀ v, f.xyz = some v → v.length = 3
  rpy : ∀ f, j.frame = some f → ∀ v, f.rpy = some v → v.length = 3
  limits : ∀ y t, j.limits = some y → declaredYAML j.type (suffix.toList.isSuffixOf (j.name.getD "").toList) = some t →
    y.Readable (Joint.nDof t)

private theorem yamlVec3_described {l : List K} (h : l.length = 3) :
    yamlVec3 l = .ok (describedVec (some l)) := by
  obtain ⟨a, b, c, rfl⟩ := List.length_eq_three.1 h
  rfl

private theorem yamlBody_described {env : ParserEnv K} {params : ParserParams} (hp : params.transformInertia = true)
    {d : Bool} {l : YLink K} (h : l.Readable) :
    yamlBody env params d (l.name.getD "") l.inertial = .ok l.described := by
  unfold yamlBody YLink.described
  cases hi : l.inertial with
  | none => dsimp only; rw [Body.ofCom_zero]
  | some i =>
    dsimp only
    have hf : yamlFrame env d i.frame = .ok (describedVec (i.frame.bind YFrame.xyz), 0) := by
      unfold yamlFrame
      cases hf : i.frame with
      | none => rfl
      | some f =>
        obtain ⟨h1, h2⟩ := h.2 i f hi hf
        dsimp only
        cases hx : f.xyz with
        | none => simp [h2, describedVec, hx]
        | some v => rw [Option.bind_some, hx]; dsimp only; rw [yamlVec3_described (h1 v hx), h2]; rfl
    rw [hf, Res.bind_ok, hp]
    show Except.ok _ = _
    congr 1
    simp only [if_true]
    have h0 : yamlRPY (0 : Vec3 K).x (0 : Vec3 K).y (0 : Vec3 K).z = 1 := yamlRPY_zero
    rw [h0, ofCom_described]
    cases i.inertia with
    | none => rfl
    | some J => rfl

/-- The reader of frames gives the transform described. -/
theorem yamlFrame_described {env : ParserEnv K} {d : Bool} {o : Option (YFrame K)}
    (h1 : ∀ f, o = some f → ∀ v, f.xyz = some v → v.length = 3)
    (h2 : ∀ f, o = some f → ∀ v, f.rpy = some v → v.length = 3) :
    ∃ p, yamlFrame env d o = .ok p ∧ (⟨yamlRPY p.2.x p.2.y p.2.z, p.1⟩ : PTransform K) = describedFrame env.deg d o := by
  unfold yamlFrame
  cases o with
  | none => exact ⟨_, rfl, by simp [describedFrame, describedVec, yamlRPY]⟩
  | some f =>
    dsimp only
    refine ⟨(describedVec f.xyz, if f.degrees.getD d then env.deg • describedVec f.rpy else describedVec f.rpy), ?_, ?_⟩
    · have h0 : (0 : Vec3 K) = if f.degrees.getD d then env.deg • describedVec (none : Option (List K))
          else describedVec (none : Option (List K)) := by
        have h0 : describedVec (none : Option (List K)) = 0 := rfl
        rw [h0]
        split
        · ext <;> simp
        · rfl
      cases hx : f.xyz with
      | none =>
        dsimp only
        cases hr : f.rpy with
        | none => rw [← h0]; rfl
        | some w => dsimp only; rw [yamlVec3_described (h2 f rfl w hr)]; rfl
      | some v =>
        dsimp only
        rw [yamlVec3_described (h1 f rfl v hx), Res.bind_ok]
        cases hr : f.rpy with
        | none => rw [← h0]; rfl
        | some w => dsimp only; rw [yamlVec3_described (h2 f rfl w hr)]; rfl
    · unfold describedFrame yamlRPY
      dsimp only
      simp only [Option.bind_some]
      split <;> simp

private theorem yamlType_described {params : ParserParams} {t : Option String} {name : String} {jt : JointType}
    (h : declaredYAML t (params.sphericalSuffix.toList.isSuffixOf name.toList) = some jt) :
    ∃ c, yamlType params t name false = .ok (jt, c) := by
  unfold yamlType hasSuffix
  generalize params.sphericalSuffix.toList.isSuffixOf name.toList = b at h ⊢
  rw [if_neg (by simp)]
  unfold declaredYAML at h
  split at h
  case h_10 => exact absurd h (by simp)
  all_goals rw [← Option.some_inj.1 h]
  case h_5 => cases b <;> exact ⟨_, rfl⟩
  all_goals exact ⟨_, rfl⟩

private theorem scaleLims_ok (c : K) {n : Nat} {l : List (Lim K)} (h : n ≤ l.length) : ∃ l', scaleLims c n l = .ok l' := by
  unfold scaleLims
  obtain ⟨s, hs, -⟩ := foldlM_range_inv (fun l i => do
    let x ← rd l i
    wr l i (x.scale c)) (fun _ s => s.length = l.length) n l rfl (by
      intro k s hk hs
      have hk' : k < s.length := by omega
      rw [rd_ok hk', Res.bind_ok, wr_ok hk']
      exact ⟨_, rfl, by simpa using hs⟩)
  exact ⟨s, hs⟩

private theorem asList_ok {x : Option (YNum K)} {d : List (Lim K)} {n : Nat} (hd : n ≤ d.length)
    (h : ∀ y, x = some y → y ≠ .nested ∧ ∀ l, y = .seq l → n ≤ l.length) :
    ∃ l, YNum.asList x d = .ok l ∧ n ≤ l.length := by
  unfold YNum.asList
  split
  · exact ⟨_, rfl, (h _ rfl).2 _ rfl⟩
  · exact absurd rfl (h _ rfl).1
  · exact ⟨d, rfl, hd⟩

private theorem yamlLimits_ok {env : ParserEnv K} {d : Bool} {lim : Option (YLimits K)} {j : Joint K} {cont : Bool}
    (h : ∀ y, lim = some y → y.Readable j.dof) : ∃ l, yamlLimits env d lim j cont = .ok l := by
  unfold yamlLimits
  cases lim with
  | none => exact ⟨_, rfl⟩
  | some y =>
    have hy := h y rfl
    dsimp only
    have key : ∀ l : JLimits K, j.dof ≤ l.lower.length → j.dof ≤ l.upper.length → j.dof ≤ l.velocity.length →
        ∃ l', (if y.degrees.getD d then (do
          let lower ← scaleLims env.deg j.dof l.lower
          let upper ← scaleLims env.deg j.dof l.upper
          let velocity ← scaleLims env.deg j.dof l.velocity
          return { l with lower := lower, upper := upper, velocity := velocity })
        else return l : Res (JLimits K)) = .ok l' := by
      intro l h1 h2 h3
      split
      · obtain ⟨a, ha⟩ := scaleLims_ok env.deg h1
        obtain ⟨b, hb⟩ := scaleLims_ok env.deg h2
        obtain ⟨c, hc⟩ := scaleLims_ok env.deg h3
        rw [ha, Res.bind_ok, hb, Res.bind_ok, hc, Res.bind_ok]
        exact ⟨_, rfl⟩
      · exact ⟨_, rfl⟩
    split
    · obtain ⟨lo, hlo, nlo⟩ := asList_ok (x := y.lower) (d := (JLimits.free K j.dof).lower) (n := j.dof)
        (by simp [JLimits.free]) (fun x hx => hy x (.inl hx))
      obtain ⟨up, hup, nup⟩ := asList_ok (x := y.upper) (d := (JLimits.free K j.dof).upper) (n := j.dof)
        (by simp [JLimits.free]) (fun x hx => hy x (.inr (.inl hx)))
      obtain ⟨ef, hef, -⟩ := asList_ok (x := y.effort) (d := (JLimits.free K j.dof).torque) (n := j.dof)
        (by simp [JLimits.free]) (fun x hx => hy x (.inr (.inr (.inl hx))))
      obtain ⟨ve, hve, nve⟩ := asList_ok (x := y.velocity) (d := (JLimits.free K j.dof).velocity) (n := j.dof)
        (by simp [JLimits.free]) (fun x hx => hy x (.inr (.inr (.inr hx))))
      cases cont with
      | true =>
        simp only [Bool.not_true, Bool.false_eq_true, if_false, Res.bind_ok, hef, hve]
        exact key ⟨(JLimits.free K j.dof).lower, (JLimits.free K j.dof).upper, ef, ve⟩ (by simp [JLimits.free])
          (by simp [JLimits.free]) nve
      | false =>
        simp only [Bool.not_false, if_true, Res.bind_ok, hlo, hup, hef, hve]
        exact key ⟨lo, up, ef, ve⟩ nlo nup nve
    · split
      · rename_i h1
        refine key ⟨_, _, _, _⟩ ?_ ?_ ?_ <;> rw [h1] <;> exact le_refl _
      · refine key (JLimits.free K j.dof) ?_ ?_ ?_ <;> simp [JLimits.free]

private theorem nameLinks_named {params : ParserParams} (i : Nat) {L : List (YLink K)} (h : ∀ l ∈ L, l.name ≠ none) :
    nameLinks params i L = L.map fun l => ⟨l.name.getD "", l.inertial⟩ := by
  induction L generalizing i with
  | nil => rfl
  | cons l L ih =>
    obtain ⟨n, hn⟩ := Option.ne_none_iff_exists'.1 (h l List.mem_cons_self)
    unfold nameLinks
    dsimp only
    rw [ih _ (fun l hl => h l (List.mem_cons_of_mem _ hl)), List.map_cons, hn]
    rfl

private theorem nameJoints_named {gone : String → Bool} (i : Nat) {J : List (YJoint K)}
    (h : ∀ j ∈ J, j.name ≠ none ∧ j.parent ≠ none ∧ j.child ≠ none) :
    nameJoints gone i J = J.map fun j => ⟨j.name.getD "", j.parent.getD "", j.child.getD "", j⟩ := by
  induction J generalizing i with
  | nil => rfl
  | cons j J ih =>
    obtain ⟨h1, h2, h3⟩ := h j List.mem_cons_self
    obtain ⟨n, hn⟩ := Option.ne_none_iff_exists'.1 h1
    obtain ⟨p, hp⟩ := Option.ne_none_iff_exists'.1 h2
    obtain ⟨c, hc⟩ := Option.ne_none_iff_exists'.1 h3
    unfold nameJoints
    dsimp only
    rw [ih _ (fun j hj => h j (List.mem_cons_of_mem _ hj)), List.map_cons, hn, hp, hc]
    rfl

private theorem yamlEdge_described {env : ParserEnv K} {params : ParserParams} {d : Bool} {fixed : String → Bool}
    (hfix : ∀ n, fixed n = false) {j : YJoint K} (h : j.Readable params.sphericalSuffix) :
    ∃ l, yamlEdge env params d fixed ⟨j.name.getD "", j.parent.getD "", j.child.getD "", j⟩ =
      .ok (j.described env.deg d params.sphericalSuffix, l) := by
  obtain ⟨jt, hjt⟩ := Option.ne_none_iff_exists'.1 h.type
  obtain ⟨c, hc⟩ := yamlType_described hjt
  obtain ⟨f, hf, hX⟩ := yamlFrame_described (env := env) (d := d) h.xyz h.rpy
  unfold yamlEdge YJoint.described
  dsimp only
  rw [hfix, hc, Res.bind_ok, hjt, ← hX]
  dsimp only
  have hax : yamlAxis j.axis = .ok (match j.axis with
      | none => ⟨0, 0, 1⟩
      | some a => describedVec (some a)) := by
    unfold yamlAxis
    cases ha : j.axis with
    | none => rfl
    | some a => exact yamlVec3_described (h.axis a ha)
  rw [hax, Res.bind_ok, hf, Res.bind_ok]
  generalize (match j.axis with
      | none => (⟨0, 0, 1⟩ : Vec3 K)
      | some a => describedVec (some a)) = ax
  obtain ⟨l, hl⟩ := yamlLimits_ok (env := env) (d := d) (lim := j.limits)
    (j := Joint.mk' jt ax true (j.name.getD "")) (cont := c) (by
      intro y hy
      have := h.limits y jt hy hjt
      exact this)
  exact ⟨l, by rw [hl]; rfl⟩

/-- **C55** for YAML. Without filter, every document whose links and joints have different names, can be read and make a
tree of root the base link, is read. The bodies of the robot are the links, its joints are the root joint and the joints
of the document, with the same types, axes and transforms, between the same links, in an order where the parent comes
before the child. The base link is by default the first one. -/
theorem C55_yaml_tree {env : ParserEnv K} {params : ParserParams} {robot : YRobot K} {name : String} {d : Bool}
    {L : List (YLink K)} {J : List (YJoint K)} {base : String}
    (hf : params.filtered = []) (hv : params.removeVirtual = false) (hp : params.transformInertia = true)
    (hn : robot.name = some name) (hd : robot.degrees = some d) (hrl : robot.links = some L) (hrj : robot.joints = some J)
    (hl : (L.map YLink.name).Nodup) (hj : (J.map YJoint.name).Nodup)
    (hL : ∀ l ∈ L, l.Readable) (hJ : ∀ j ∈ J, j.Readable params.sphericalSuffix)
    (hk : ∀ j ∈ J, j.parent ∈ L.map YLink.name ∧ j.child ∈ L.map YLink.name)
    (hb0 : base ≠ "" ∧ (params.baseLink = base ∨
      params.baseLink = "" ∧ ∃ l, L.head? = some l ∧ l.name = some base))
    (T : TreeShape (L.map fun l => l.name.getD "") (J.map fun j => (j.parent.getD "", j.child.getD "")) base) :
    ∃ r, fromYAML env (some robot) params = .ok r ∧ r.name = name ∧
      r.Reads (L.map YLink.described) (J.map (YJoint.described env.deg d params.sphericalSuffix)) base params.fixed ∧
      ((∀ j ∈ J, j.name ≠ some "Root") → r.Standard env base params.fixed) := by
  set bs := L.map YLink.described with hbs
  set es := J.map (YJoint.described env.deg d params.sphericalSuffix) with hes
  have hname : ∀ l : YLink K, l.described.name = l.name.getD "" := fun l => by
    unfold YLink.described; cases l.inertial <;> rfl
  have hjname : ∀ j : YJoint K, (j.described env.deg d params.sphericalSuffix).j.name = j.name.getD "" := fun j => rfl
  have hnames : bs.map Body.name = L.map fun l => l.name.getD "" := by
    rw [hbs, List.map_map]; exact List.map_congr_left fun l _ => hname l
  have hjn : (es.map (fun e => e.j.name)) = J.map fun j => j.name.getD "" := by
    rw [hes, List.map_map]; exact List.map_congr_left fun j _ => hjname j
  have hends : es.map Edge.ends = J.map fun j => (j.parent.getD "", j.child.getD "") := by
    rw [hes, List.map_map]; rfl
  have hnd : (L.map fun l => l.name.getD "").Nodup := by
    have hl' := List.pairwise_map.1 hl
    refine List.pairwise_map.2 (List.Pairwise.imp_of_mem ?_ hl')
    intro a b ha hb hab hc
    obtain ⟨x, hx⟩ := Option.ne_none_iff_exists'.1 (hL a ha).1
    obtain ⟨y, hy⟩ := Option.ne_none_iff_exists'.1 (hL b hb).1
    rw [hx, hy] at hc hab
    exact hab (congrArg some hc)
  have hjnd : (J.map fun j => j.name.getD "").Nodup := by
    refine List.pairwise_map.2 (List.Pairwise.imp_of_mem ?_ (List.pairwise_map.1 hj))
    intro a b ha hb hab hc
    obtain ⟨x, hx⟩ := Option.ne_none_iff_exists'.1 (hJ a ha).name
    obtain ⟨y, hy⟩ := Option.ne_none_iff_exists'.1 (hJ b hb).name
    rw [hx, hy] at hc hab
    exact hab (congrArg some hc)
  have hmem : ∀ o : Option String, o ∈ L.map YLink.name → o.getD "" ∈ L.map fun l => l.name.getD "" := by
    intro o ho
    obtain ⟨l, hl1, rfl⟩ := List.mem_map.1 ho
    exact List.mem_map.2 ⟨l, hl1, rfl⟩
  obtain ⟨s, hs, A⟩ := assemble_ok (bs := bs) (es := es) (by rw [hnames]; exact hnd) (by rw [hjn]; exact hjnd) (by
    intro e he
    rw [hes] at he
    obtain ⟨j, hjm, rfl⟩ := List.mem_map.1 he
    rw [hnames]
    exact ⟨hmem _ (hk j hjm).1, hmem _ (hk j hjm).2⟩)
  have hkl : ∀ l : NLink K, l.kept params = true := by
    intro l
    unfold NLink.kept
    simp [hf, hv]
  have hnl := nameLinks_named (params := params) 1 (fun l hl => (hL l hl).1)
  have hkept : keptLinks params 1 L = L.map fun l => ⟨l.name.getD "", l.inertial⟩ := by
    unfold keptLinks
    rw [hnl]
    exact List.filter_eq_self.2 fun l _ => hkl l
  have hgone : ∀ n, goneY params L n = false := by
    intro n
    unfold goneY
    rw [List.any_eq_false]
    intro l _
    simp [hkl l]
  have hfix : ∀ n, fixedY params L n = false := by
    intro n
    unfold fixedY
    rw [List.any_eq_false]
    intro l _
    simp [hf]
  have hread : readJointsY params L J = J.map fun j => ⟨j.name.getD "", j.parent.getD "", j.child.getD "", j⟩ := by
    unfold readJointsY
    rw [nameJoints_named 1 (fun j hj => ⟨(hJ j hj).name, (hJ j hj).parent, (hJ j hj).child⟩)]
    simp [hgone]
  have hlim : ∀ j : {j // j ∈ J}, ∃ l, yamlEdge env params d (fixedY params L)
      ⟨j.1.name.getD "", j.1.parent.getD "", j.1.child.getD "", j.1⟩ =
      .ok (j.1.described env.deg d params.sphericalSuffix, l) := fun j => yamlEdge_described hfix (hJ j.1 j.2)
  choose lim hlim using hlim
  let es' : List (REdge K) := J.attach.map fun j => (j.1.described env.deg d params.sphericalSuffix, lim j)
  have hes' : es'.map Prod.fst = es := by
    simp only [es', List.map_map, hes]
    conv_rhs => rw [← List.attach_map_subtype_val J, List.map_map]
    rfl
  have hfirst : base = (if params.baseLink ≠ "" then params.baseLink else firstNamed (keptLinks params 1 L)) := by
    rcases hb0.2 with h | ⟨h, l, h1, h2⟩
    · rw [if_pos (by rw [h]; exact hb0.1), h]
    · rw [if_neg (by rw [not_not]; exact h), hkept]
      cases L with
      | nil => simp at h1
      | cons a t =>
        have : a = l := by simpa using h1
        subst this
        unfold firstNamed
        rw [List.map_cons, List.foldl_cons, if_pos rfl, h2]
        show base = List.foldl _ base _
        generalize List.map _ t = t'
        induction t' with
        | nil => rfl
        | cons x t' ih => rw [List.foldl_cons, if_neg hb0.1]; exact ih
  have hp' : parseYAML env (some robot) params =
      .ok (name, base, (s, es'.foldl (fun lim e => lim.set e.1.j.name e.2) ⟨[], [], [], []⟩)) := by
    rw [parseYAML_iff]
    refine ⟨hn, L, d, J, hrl, hd, hrj, hfirst, bs, es', ?_, ?_, ?_, rfl⟩
    · rw [hkept, hbs, List.forall₂_map_right_iff, List.forall₂_map_left_iff]
      exact List.forall₂_same.2 fun l hlm => yamlBody_described hp (hL l hlm)
    · rw [hread]
      conv in List.map _ J => rw [← List.attach_map_subtype_val J]
      rw [List.map_map]
      simp only [es', List.forall₂_map_right_iff, List.forall₂_map_left_iff]
      exact List.forall₂_same.2 fun j _ => hlim j
    · rw [hes']; exact hs
  have hb : ∀ e ∈ es, e.j.Built ∧ e.j.isForward = true := by
    intro e he
    rw [hes] at he
    obtain ⟨j, -, rfl⟩ := List.mem_map.1 he
    exact ⟨.mk _ _ _ _, Joint.isForward_mk' ..⟩
  obtain ⟨r, h1, h2, -, -, -, h3, h4⟩ := finish_tree (env := env) (name := name) (base := base) (fixed := params.fixed)
    (s := (s, es'.foldl (fun lim e => lim.set e.1.j.name e.2) ⟨[], [], [], []⟩)) A (by rw [hnames, hends]; exact T) hb
  refine ⟨r, ?_, h2, h3, fun hR => h4 ?_⟩
  · unfold fromYAML
    rw [hp', Res.bind_ok]
    exact h1
  · intro e he
    rw [hes] at he
    obtain ⟨j, hjm, rfl⟩ := List.mem_map.1 he
    rw [hjname]
    intro hc
    obtain ⟨y, hy⟩ := Option.ne_none_iff_exists'.1 (hJ j hjm).name
    rw [hy] at hc
    exact hR j hjm (by rw [hy]; exact congrArg some hc)

/-- A document with names, and revolute, fixed and prismatic joints; the second joint has limits. -/
def Sample.yamlTree : YRobot ℚ :=
  let i : Option (YInertial ℚ) := some ⟨some 2, some ⟨some [1, 0, 0], none, none⟩, none⟩
  { name := some "r"
    degrees := some false
    links := some [⟨some "base", i⟩, ⟨some "a", i⟩, ⟨some "tip", none⟩, ⟨some "b", i⟩]
    joints := some [⟨some "j1", some "base", some "a", none, none, some ⟨some [1, 0, 0], some [0, 0, 1], none⟩, none⟩,
      ⟨some "j2", some "a", some "tip", some "fixed", none, none, none⟩,
      ⟨some "j3", some "a", some "b", some "prismatic", some [1, 0, 0], none,
        some ⟨some (.scalar (.val 0)), some (.scalar (.val 1)), none, none, none⟩⟩] }

example : ∃ r, fromYAML Sample.env (some Sample.yamlTree) {} = .ok r ∧ r.name = "r" ∧
    r.Reads ((Sample.yamlTree.links.getD []).map YLink.described)
      ((Sample.yamlTree.joints.getD []).map (YJoint.described 1 false "_spherical")) "base" true ∧
    r.Standard Sample.env "base" true := by
  have h := C55_yaml_tree (env := Sample.env) (params := {}) (robot := Sample.yamlTree) (name := "r") (d := false)
    (L := Sample.yamlTree.links.getD []) (J := Sample.yamlTree.joints.getD []) (base := "base") rfl rfl rfl rfl rfl rfl
    rfl (by decide +kernel) (by decide +kernel)
    (by
      intro l hl
      have : ∀ l ∈ Sample.yamlTree.links.getD [], l.name ≠ none ∧ ∀ i ∈ l.inertial, ∀ f ∈ i.frame,
          (∀ v ∈ f.xyz, v.length = 3) ∧ f.rpy = none := by decide +kernel
      exact ⟨(this l hl).1, fun i f hi hf => (this l hl).2 i hi f hf⟩)
    (by
      intro j hj
      have h1 : ∀ j ∈ Sample.yamlTree.joints.getD [], j.name ≠ none ∧ j.parent ≠ none ∧ j.child ≠ none ∧
          declaredYAML j.type ("_spherical".toList.isSuffixOf (j.name.getD "").toList) ≠ none ∧
          (∀ v ∈ j.axis, v.length = 3) ∧ (∀ f ∈ j.frame, ∀ v ∈ f.xyz, v.length = 3) ∧
          (∀ f ∈ j.frame, ∀ v ∈ f.rpy, v.length = 3) := by decide +kernel
      obtain ⟨a, b, c, d, e, f, g⟩ := h1 j hj
      refine ⟨a, b, c, d, e, f, g, ?_⟩
      intro y t hy _ x hx
      simp only [Sample.yamlTree, Option.getD_some, List.mem_cons, List.not_mem_nil, or_false] at hj
      rcases hj with rfl | rfl | rfl <;> simp at hy
      subst hy
      simp at hx
      rcases hx with rfl | rfl <;> simp)
    (by decide +kernel) ⟨by decide, .inr ⟨rfl, _, rfl, rfl⟩⟩
    { root := by decide +kernel
      once := by decide +kernel
      top := by decide +kernel
      below := by decide +kernel
      rank := ⟨fun n => ["base", "a", "tip", "b"].idxOf n, by decide +kernel⟩ }
  obtain ⟨r, h1, h2, h3, h4⟩ := h
  exact ⟨r, h1, h2, h3, h4 (by decide +kernel)⟩

end RBDyn
