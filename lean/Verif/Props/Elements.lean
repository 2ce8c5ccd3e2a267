import Verif.Props.Readers
import Verif.Props.Visuals

/-! Property C60: what the readers take from one visual or collision element. -/

namespace RBDyn
variable {K : Type} [Scalar K]

/-- The scale of a mesh: one number stands for three, without a scale it is one. -/
def describedScale (s : Option (List K)) : Vec3 K :=
  match s with
  | none => ⟨1, 1, 1⟩
  | some [x] => ⟨x, x, x⟩
  | some [x, y, z] => ⟨x, y, z⟩
  | _ => 0

private theorem scaleOf_described {s : Option (List K)} (h : ∀ l, s = some l → l.length = 1 ∨ l.length = 3) :
    scaleOf (s.getD [1]) = .ok (describedScale s) := by
  cases s with
  | none => rfl
  | some l =>
    rcases h l rfl with h | h
    · obtain ⟨x, rfl⟩ := List.length_eq_one_iff.1 h; rfl
    · obtain ⟨x, y, z, rfl⟩ := List.length_eq_three.1 h; rfl

private theorem attrVec_described (s : Option (List K)) : attrToVector s 0 = describedVec s := by
  rcases s with _ | ⟨_ | ⟨a, _ | ⟨b, _ | ⟨c, _ | ⟨d, l⟩⟩⟩⟩⟩ <;> rfl

/-- The solid is the one of the `<geometry>` element. A mesh comes before a box, a box before a cylinder, a cylinder before a sphere and a sphere
before a superellipsoid. Sizes, radii and lengths are zero by default and the exponents of a superellipsoid one. -/
structure XGeometry.Describes (g : XGeometry K) (x : Geometry K) : Prop where
  mesh : ∀ f s, g.mesh = some ⟨some f, s⟩ → x = ⟨.MESH, .mesh f (describedScale s)⟩
  box : g.mesh = none → ∀ s, g.box = some s → x = ⟨.BOX, .box (describedVec s)⟩
  cylinder : g.mesh = none → g.box = none → ∀ radius length, g.cylinder = some (radius, length) →
    x = ⟨.CYLINDER, .cylinder (radius.getD 0) (length.getD 0)⟩
  sphere : g.mesh = none → g.box = none → g.cylinder = none → ∀ radius, g.sphere = some radius → x = ⟨.SPHERE, .sphere (radius.getD 0)⟩
  superellipsoid : g.mesh = none → g.box = none → g.cylinder = none → g.sphere = none →
    ∀ size epsilon1 epsilon2, g.superellipsoid = some (size, epsilon1, epsilon2) →
      x = ⟨.SUPERELLIPSOID, .superellipsoid (describedVec size) (epsilon1.getD 1) (epsilon2.getD 1)⟩
  unknown : g = {} → x.type = .UNKNOWN

/-- **C60**, URDF, one element: an element without a geometry gives nothing. From any other element that can be read the reader takes the name, the
transform of the origin, the solid, and the first valid definition in the robot of the material of that name, otherwise the definition in the
element. -/
theorem C60_urdf_element (materials : List (XMaterial K)) (d : XVisual K) (hd : d.Readable) :
    (d.geometry = none → visualFromTag (materials.foldl cacheMaterial []) d = .ok none) ∧
    ∀ g, d.geometry = some g → ∃ v, visualFromTag (materials.foldl cacheMaterial []) d = .ok (some v) ∧
      v.name = d.name.getD "" ∧ v.origin = describedOrigin d.origin ∧ g.Describes v.geometry ∧
      v.material = (d.material.bind fun m => m.name.bind fun n =>
        ((materials.filter fun d => d.name = some n).findSome? XMaterial.own).or m.own).getD Material.none := by
  constructor
  · intro h; unfold visualFromTag; rw [h]
  · intro g hg
    obtain ⟨h1, h2⟩ := hd g hg
    have hX := urdfOrigin_described h1
    obtain ⟨x, hx, hD⟩ : ∃ x, urdfGeometry g = .ok x ∧ g.Describes x := by
      obtain ⟨mesh, box, cyl, sph, sup⟩ := g
      rcases mesh with _ | ⟨f, s⟩
      · unfold urdfGeometry
        rcases box with _ | b
        · rcases cyl with _ | ⟨r, l⟩
          · rcases sph with _ | r
            · rcases sup with _ | ⟨s, e1, e2⟩
              · exact ⟨_, rfl, by constructor <;> simp⟩
              · exact ⟨_, rfl, by constructor <;> simp [attrVec_described]⟩
            · exact ⟨_, rfl, by constructor <;> simp⟩
          · exact ⟨_, rfl, by constructor <;> simp⟩
        · exact ⟨_, rfl, by constructor <;> simp [attrVec_described]⟩
      · obtain ⟨h3, h4⟩ := h2 _ rfl
        obtain ⟨f, rfl⟩ := Option.ne_none_iff_exists'.1 h3
        refine ⟨⟨.MESH, .mesh f (describedScale s)⟩, ?_, by constructor <;> simp⟩
        unfold urdfGeometry geometryFromMesh
        dsimp only
        rw [Res.bind_ok, scaleOf_described h4]
        rfl
    refine ⟨⟨d.name.getD "", describedOrigin d.origin, x, _⟩, ?_, rfl, rfl, hD, rfl⟩
    unfold visualFromTag
    rw [hg]
    dsimp only
    rw [hX, Res.bind_ok, hx, Res.bind_ok]
    cases d.material with
    | none => rfl
    | some m => dsimp only; rw [C60_urdf_material]; rfl

/-- The solid is the one of the entry. -/
def YGeometry.Describes (g : YGeometry K) (x : Geometry K) : Prop :=
  match g with
  | .mesh (some f) s => x = ⟨.MESH, .mesh f (describedScale s)⟩
  | .box (some (a :: b :: c :: _)) => x = ⟨.BOX, .box ⟨a, b, c⟩⟩
  | .cylinder (some radius) (some length) => x = ⟨.CYLINDER, .cylinder radius length⟩
  | .sphere (some radius) => x = ⟨.SPHERE, .sphere radius⟩
  | .superellipsoid (some (a :: b :: c :: _)) (some epsilon1) (some epsilon2) =>
    x = ⟨.SUPERELLIPSOID, .superellipsoid ⟨a, b, c⟩ epsilon1 epsilon2⟩
  | _ => False

private theorem yamlGeometryStep_described (s : Geometry K) {g : YGeometry K} (h : g.Readable) :
    ∃ x, yamlGeometryStep s g = .ok x ∧ g.Describes x := by
  have three : ∀ l : List K, 3 ≤ l.length → ∃ a b c t, l = a :: b :: c :: t := by
    intro l hl
    rcases l with _ | ⟨a, _ | ⟨b, _ | ⟨c, t⟩⟩⟩ <;> simp at hl
    exact ⟨a, b, c, t, rfl⟩
  cases g with
  | mesh f sc =>
    obtain ⟨h1, h2⟩ := h
    obtain ⟨f, rfl⟩ := Option.ne_none_iff_exists'.1 h1
    refine ⟨_, ?_, rfl⟩
    unfold yamlGeometryStep
    dsimp only
    rw [scaleOf_described h2]; rfl
  | box sz =>
    obtain ⟨l, rfl, hl⟩ := h
    obtain ⟨a, b, c, t, rfl⟩ := three l hl
    exact ⟨_, rfl, rfl⟩
  | cylinder r l =>
    obtain ⟨r, rfl⟩ := Option.ne_none_iff_exists'.1 h.1
    obtain ⟨l, rfl⟩ := Option.ne_none_iff_exists'.1 h.2
    exact ⟨_, rfl, rfl⟩
  | sphere r =>
    obtain ⟨r, rfl⟩ := Option.ne_none_iff_exists'.1 h
    exact ⟨_, rfl, rfl⟩
  | superellipsoid sz e1 e2 =>
    obtain ⟨⟨l, rfl, hl⟩, h1, h2⟩ := h
    obtain ⟨a, b, c, t, rfl⟩ := three l hl
    obtain ⟨e1, rfl⟩ := Option.ne_none_iff_exists'.1 h1
    obtain ⟨e2, rfl⟩ := Option.ne_none_iff_exists'.1 h2
    exact ⟨_, rfl, rfl⟩
  | other => exact h.elim

private theorem yamlGeometries_described : ∀ (l : List (YGeometry K)) (s : Geometry K), (∀ e ∈ l, e.Readable) →
    ∃ x, l.foldlM yamlGeometryStep s = .ok x ∧ ∀ e, l.getLast? = some e → e.Describes x
  | [], s, _ => ⟨s, rfl, fun e h => by simp at h⟩
  | g :: l, s, h => by
    obtain ⟨x, hx, hD⟩ := yamlGeometryStep_described s (h g (List.mem_cons_self ..))
    obtain ⟨y, hy, hE⟩ := yamlGeometries_described l x fun e he => h e (List.mem_cons_of_mem _ he)
    refine ⟨y, by rw [List.foldlM_cons, hx, Res.bind_ok, hy], fun e he => ?_⟩
    cases l with
    | nil =>
      cases hy
      have : g = e := by simpa using he
      subst this; exact hD
    | cons g' l => exact hE e (by rwa [List.getLast?_cons_cons] at he)

/-- **C60**, YAML, one element: an element without a geometry, or with an empty one, gives nothing. From any other element that can be read the
reader takes the name, the transform of the frame, the solid of the last entry of the geometry, and the material: the definition in the element if
it is valid, otherwise the last valid definition of that name in the robot. -/
theorem C60_yaml_element (env : ParserEnv K) (degrees : Bool) (materials : List (YMaterial K)) (hm : ∀ m ∈ materials, m.Readable)
    (d : YVisual K) (hd : d.Readable) :
    ∃ cache, materials.foldlM yamlCache [] = .ok cache ∧
      (d.geometry.getD [] = [] → yamlVisual env degrees cache d = .ok none) ∧
      ∀ g, (d.geometry.getD []).getLast? = some g → ∃ v, yamlVisual env degrees cache d = .ok (some v) ∧
        v.name = d.name.getD "" ∧ v.origin = describedFrame env.deg degrees d.frame ∧ g.Describes v.geometry ∧
        v.material = (d.material.bind fun m => if m.name.getD "" = "" then none else
          m.own.or (YMaterial.last materials (m.name.getD ""))).getD Material.none := by
  obtain ⟨p, hp, hX⟩ := yamlFrame_described (env := env) (d := degrees) (o := d.frame)
    (fun f hf => (hd.frame f hf).1) (fun f hf => (hd.frame f hf).2)
  obtain ⟨cache, hc, -⟩ := C60_yaml_material materials hm ⟨none, none, none⟩ (fun h => absurd rfl h)
  refine ⟨cache, hc, ?_⟩
  have hmat : (match d.material with
      | none => Except.ok Material.none
      | some m => yamlMaterial cache m Material.none : Res (Material K)) = .ok ((d.material.bind fun m => if m.name.getD "" = "" then none else
          m.own.or (YMaterial.last materials (m.name.getD ""))).getD Material.none) := by
    cases h : d.material with
    | none => rfl
    | some m =>
      obtain ⟨c', hc', e⟩ := C60_yaml_material materials hm m (hd.material m h)
      rw [hc] at hc'
      cases hc'
      dsimp only [Option.bind_some]
      rw [e]
      split <;> rfl
  have hv : ∀ r, yamlGeometry d.geometry = .ok r → yamlVisual env degrees cache d = .ok (r.map fun g =>
      ⟨d.name.getD "", describedFrame env.deg degrees d.frame, g, (d.material.bind fun m => if m.name.getD "" = "" then none else
          m.own.or (YMaterial.last materials (m.name.getD ""))).getD Material.none⟩) := by
    intro r hr
    unfold yamlVisual
    rw [hp, Res.bind_ok, ← hX]
    dsimp only
    generalize (d.material.bind fun m => if m.name.getD "" = "" then none else
          m.own.or (YMaterial.last materials (m.name.getD ""))).getD Material.none = M at hmat ⊢
    cases hmm : d.material with
    | none => rw [hmm] at hmat; dsimp only at hmat ⊢; cases hmat; rw [Res.bind_ok, hr]; rfl
    | some m => rw [hmm] at hmat; dsimp only at hmat ⊢; rw [hmat, Res.bind_ok, hr]; rfl
  constructor
  · intro h
    rw [hv none ?_]
    · rfl
    · unfold yamlGeometry
      cases hg : d.geometry with
      | none => rfl
      | some l => rw [hg] at h; cases h; rfl
  · intro g hg
    cases hgl : d.geometry with
    | none => rw [hgl] at hg; simp at hg
    | some l =>
      rw [hgl] at hg
      obtain ⟨x, hx, hD⟩ := yamlGeometries_described l Geometry.empty (hd.geometry l hgl)
      refine ⟨_, hv (some x) ?_, rfl, rfl, hD g hg, rfl⟩
      rw [hgl]
      unfold yamlGeometry
      dsimp only
      rw [hx, Res.bind_ok]
      cases l with
      | nil => simp at hg
      | cons a l => rfl

/-- A cylinder with a material of the robot, in both formats: the elements can be read. -/
example : XVisual.Readable (K := ℚ) ⟨some "v", some ⟨some [1, 2, 3], some [0, 0, 0]⟩, some { cylinder := some (some 1, some 2) },
    some ⟨some "m", none, none⟩⟩ ∧
    YVisual.Readable (K := ℚ) ⟨some "v", some ⟨some [1, 2, 3], none, none⟩, some [.superellipsoid (some [1, 2, 3]) (some 1) (some 2)],
      some ⟨some "m", none, none⟩⟩ := by
  refine ⟨by simp [XVisual.Readable], ⟨by simp, by simp [YMaterial.Readable], by simp [YGeometry.Readable]⟩⟩

end RBDyn
