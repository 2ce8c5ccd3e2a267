import Verif.Model.Parsers

/-!
Model of the visual, collision, geometry and material parts of `src/parsers/RBDyn/parsers/common.h`, `src/parsers/urdf.cpp`,
`src/parsers/yaml.cpp`, `src/parsers/to_urdf.cpp` and `src/parsers/to_yaml.cpp`, at the same level of abstraction as
`Verif/Model/Parsers.lean`: a document is the tree of elements with the attributes and the keys the code reads.

In the code the elements of a link are read just before its body is added to the graph. Here they are read in a pass of their own
over the same links, so that only the choice of the error reported when both parts fail differs.
-/

namespace RBDyn
variable {K : Type}

/-! ### common.h -/

/-- `Geometry::Type`, common.h:82-90. -/
inductive GType where
  | BOX | CYLINDER | SPHERE | MESH | SUPERELLIPSOID | UNKNOWN
  deriving DecidableEq, Repr

/-- `Geometry::Data`, common.h:44-80 and 92. -/
inductive GData (K : Type) where
  | box (size : Vec3 K)
  | cylinder (radius length : K)
  | mesh (filename : String) (scale : Vec3 K)
  | sphere (radius : K)
  | superellipsoid (size : Vec3 K) (epsilon1 epsilon2 : K)
  deriving DecidableEq, Repr

/-- `struct Geometry`, common.h:41-96. -/
structure Geometry (K : Type) where
  type : GType
  data : GData K
  deriving DecidableEq, Repr

/-- `Material::Type`, common.h:119-124. -/
inductive MatType where
  | NONE | COLOR | TEXTURE
  deriving DecidableEq, Repr

/-- `Material::Data`, common.h:107-117 and 126. -/
inductive MatData (K : Type) where
  | color (r g b a : K)
  | texture (filename : String)
  deriving DecidableEq, Repr

/-- `struct Material`, common.h:105-130. -/
structure Material (K : Type) where
  type : MatType
  data : MatData K
  deriving DecidableEq, Repr

/-- `struct Visual`, common.h:132-138. -/
structure Visual (K : Type) where
  name : String
  origin : PTransform K
  geometry : Geometry K
  material : Material K
  deriving DecidableEq, Repr

/-- `std::map<std::string, std::vector<Visual>>`: the members `visual` and `collision` of `ParserResult`, common.h:234-235. -/
abbrev VMap (K : Type) := SMap (List (Visual K))

/-- `data[name].push_back(v)` -/
def VMap.push (m : VMap K) (name : String) (v : Visual K) : VMap K := SMap.set m name ((SMap.find m name).getD [] ++ [v])

section
variable [Scalar K]

/-- `Geometry()`, common.h:95: the variant holds its first alternative, `Box()`. -/
def Geometry.empty : Geometry K := ⟨.UNKNOWN, .box 0⟩

/-- `Material()`, common.h:129: the variant holds its first alternative. -/
def Material.none : Material K := ⟨.NONE, .color 0 0 0 0⟩

/-! ### URDF documents -/

/-- `<mesh filename=... scale=...>` -/
structure XMesh (K : Type) where
  filename : Option String
  scale : Option (List K)
  deriving DecidableEq, Repr

/-- `<geometry>`: for each kind the first element of that kind, with its attributes. -/
structure XGeometry (K : Type) where
  mesh : Option (XMesh K) := none
  /-- `size` -/
  box : Option (Option (List K)) := none
  /-- `radius`, `length` -/
  cylinder : Option (Option K × Option K) := none
  /-- `radius` -/
  sphere : Option (Option K) := none
  /-- `size`, `epsilon1`, `epsilon2` -/
  superellipsoid : Option (Option (List K) × Option K × Option K) := none
  deriving DecidableEq, Repr

/-- `<material name=...>` with `<color rgba=...>` and `<texture filename=...>` -/
structure XMaterial (K : Type) where
  name : Option String
  color : Option (Option (List K))
  texture : Option (Option String)
  deriving DecidableEq, Repr

/-- `<visual>` or `<collision>` -/
structure XVisual (K : Type) where
  name : Option String
  origin : Option (XOrigin K)
  geometry : Option (XGeometry K)
  material : Option (XMaterial K)
  deriving DecidableEq, Repr

/-- `<link>` with the elements that are not in `XLink`. -/
structure XVLink (K : Type) where
  link : XLink K
  visuals : List (XVisual K)
  collisions : List (XVisual K)
  deriving DecidableEq, Repr

/-! ### urdf.cpp -/

/-- `materialFromTag(dom, materials, out)`, urdf.cpp:161-208: the material, or `none` when the function returns `false`. -/
def materialFromTag (cache : SMap (Material K)) (dom : XMaterial K) : Option (Material K) :=
  match dom.name with
  | none => none
  | some name =>
    match cache.find name with
    | some m => some m
    | none =>
      match dom.color with
      | some rgba =>
        match rgba.getD [1, 0, 0, 1] with
        | [r, g, b, a] => some ⟨.COLOR, .color r g b a⟩
        | _ => none
      | none =>
        match dom.texture with
        | some (some filename) => some ⟨.TEXTURE, .texture filename⟩
        | _ => none

/-- `addToCache(cache, name, m)`, urdf.cpp:156-159, called by `materialFromTag` for the materials of `<robot>` that are not yet there,
urdf.cpp:347-356. -/
def cacheMaterial (cache : SMap (Material K)) (dom : XMaterial K) : SMap (Material K) :=
  match dom.name, materialFromTag cache dom with
  | some name, some m => if (cache.find name).isSome then cache else cache.set name m
  | _, _ => cache

/-- `mesh.scaleV` from the list of numbers: three numbers, or one for all; anything else fails an `assert`, urdf.cpp:237-246 and
yaml.cpp:316-325. -/
def scaleOf (l : List K) : Res (Vec3 K) :=
  match l with
  | [x, y, z] => .ok ⟨x, y, z⟩
  | [x] => .ok ⟨x, x, x⟩
  | _ => .error .ub

/-- `geometryFromMesh(meshDom)`, urdf.cpp:233-248: a null `filename` is assigned to a string. -/
def geometryFromMesh (m : XMesh K) : Res (GData K) := do
  let filename ← match m.filename with | none => .error .ub | some f => .ok f
  let s ← scaleOf (m.scale.getD [1])
  return .mesh filename s

/-- The geometry of `visualFromTag`, urdf.cpp:283-310, with `geometryFromBox`, `geometryFromCylinder`, `geometryFromSphere` and
`geometryFromSuperEllipsoid`, urdf.cpp:250-279: the first kind found, in this order. `attrToDouble` gives the default for an attribute that is
absent or unreadable, urdf.cpp:25-45. -/
def urdfGeometry (g : XGeometry K) : Res (Geometry K) :=
  match g.mesh with
  | some m => do
    let d ← geometryFromMesh m
    return ⟨.MESH, d⟩
  | none =>
    match g.box with
    | some size => .ok ⟨.BOX, .box (attrToVector size 0)⟩
    | none =>
      match g.cylinder with
      | some (r, l) => .ok ⟨.CYLINDER, .cylinder (r.getD 0) (l.getD 0)⟩
      | none =>
        match g.sphere with
        | some r => .ok ⟨.SPHERE, .sphere (r.getD 0)⟩
        | none =>
          match g.superellipsoid with
          | some (size, e1, e2) => .ok ⟨.SUPERELLIPSOID, .superellipsoid (attrToVector size 0) (e1.getD 1) (e2.getD 1)⟩
          | none => .ok ⟨.UNKNOWN, .box 0⟩

/-- `visualFromTag(dom, materials, out)`, urdf.cpp:281-326, with `originFromTag`, urdf.cpp:210-226: `none` when the function returns `false`. -/
def visualFromTag (cache : SMap (Material K)) (dom : XVisual K) : Res (Option (Visual K)) :=
  match dom.geometry with
  | none => .ok none
  | some geometry => do
    let origin ← urdfOrigin dom.origin
    let g ← urdfGeometry geometry
    let material := match dom.material with
      | none => Material.none
      | some m => (materialFromTag cache m).getD Material.none
    return some ⟨dom.name.getD "", origin, g, material⟩

/-- One turn of the loops over `<visual>` and `<collision>`, urdf.cpp:443-463. -/
def urdfPush (cache : SMap (Material K)) (name : String) (data : VMap K) (dom : XVisual K) : Res (VMap K) := do
  let v ← visualFromTag cache dom
  match v with
  | some v => return data.push name v
  | none => return data

/-- The visual and collision elements of a link, urdf.cpp:443-463. -/
def urdfLinkVisuals (cache : SMap (Material K)) (s : VMap K × VMap K) (l : XVLink K) : Res (VMap K × VMap K) := do
  let visual ← l.visuals.foldlM (urdfPush cache l.link.name) s.1
  let collision ← l.collisions.foldlM (urdfPush cache l.link.name) s.2
  return (visual, collision)

/-- The links that are kept, urdf.cpp:369-396: `splitLink` on the links with their visuals. -/
def keepXVLink (params : ParserParams) (l : XVLink K) : Bool :=
  if l.link.inertial.isNone && params.removeVirtual then false
  else if l.link.name ∈ params.filtered then !params.removeFiltered
  else true

/-- `res.visual` and `res.collision` after `parseMultiBodyGraphFromURDF`: the materials of `<robot>`, urdf.cpp:347-356, then the loop over the
links that are kept, urdf.cpp:409-467. -/
def urdfVisuals (params : ParserParams) (materials : List (XMaterial K)) (links : List (XVLink K)) : Res (VMap K × VMap K) :=
  (links.filter (keepXVLink params)).foldlM (urdfLinkVisuals (materials.foldl cacheMaterial [])) ([], [])

/-! ### to_urdf.cpp -/

/-- The name both writers give to a material, to_urdf.cpp:138 and to_yaml.cpp:129. -/
def materialName (link : String) (i : Nat) : String := "material_" ++ link ++ "_" ++ toString i

/-- The material element, to_urdf.cpp:134-157: `boost::get` throws on a variant that holds something else than the type says. -/
def writeXMaterial (env : ParserEnv K) (name : String) (m : Material K) : Res (Option (XMaterial K)) :=
  match m.type with
  | .NONE => .ok none
  | .COLOR =>
    match m.data with
    | .color r g b a => .ok (some ⟨some name, some (some [env.print r, env.print g, env.print b, env.print a]), none⟩)
    | _ => .error .runtimeError
  | .TEXTURE =>
    match m.data with
    | .texture f => .ok (some ⟨some name, none, some (some (prefixPath f))⟩)
    | _ => .error .runtimeError

/-- `set_vec3d(e, name, v)`, to_urdf.cpp:27-34. -/
def writeVec (env : ParserEnv K) (v : Vec3 K) : List K := [env.print v.x, env.print v.y, env.print v.z]

/-- The geometry element, to_urdf.cpp:159-209. -/
def writeXGeometry (env : ParserEnv K) (g : Geometry K) : Res (XGeometry K) :=
  match g.type with
  | .BOX => match g.data with
    | .box size => .ok { box := some (some (writeVec env size)) }
    | _ => .error .runtimeError
  | .CYLINDER => match g.data with
    | .cylinder r l => .ok { cylinder := some (some (env.print r), some (env.print l)) }
    | _ => .error .runtimeError
  | .MESH => match g.data with
    | .mesh f s => .ok { mesh := some ⟨some (prefixPath f), some (writeVec env s)⟩ }
    | _ => .error .runtimeError
  | .SPHERE => match g.data with
    | .sphere r => .ok { sphere := some (some (env.print r)) }
    | _ => .error .runtimeError
  | .SUPERELLIPSOID => match g.data with
    | .superellipsoid size e1 e2 => .ok { superellipsoid := some (some (writeVec env size), some (env.print e1), some (env.print e2)) }
    | _ => .error .runtimeError
  | .UNKNOWN => .ok {}

/-- The element written for a visual, to_urdf.cpp:124-211; the name of the visual is not written. -/
def writeXVisual (env : ParserEnv K) (link : String) (i : Nat) (v : Visual K) : Res (XVisual K) := do
  let material ← writeXMaterial env (materialName link i) v.material
  let geometry ← writeXGeometry env v.geometry
  return ⟨none, writeOrigin env v.origin, some geometry, material⟩

/-- The lambda `generate_visual`, to_urdf.cpp:115-213 and to_yaml.cpp:105-203: the loop shared by both writers. -/
def writeVisuals {β : Type} (w : Nat → Visual K → Res β) (visuals : VMap K) (link : String) : Res (List β) :=
  match visuals.find link with
  | none => .ok []
  | some l => (List.range l.length).foldlM (fun acc i => do
      let v ← rd l i
      if v.geometry.type = .UNKNOWN then return acc
      let x ← w i v
      return acc ++ [x]) []

/-- The link written for a body, with its visual and collision elements, to_urdf.cpp:56-219. -/
def writeXVLink (env : ParserEnv K) (visual collision : VMap K) (b : Body K) : Res (XVLink K) := do
  let v ← writeVisuals (writeXVisual env b.name) visual b.name
  let c ← writeVisuals (writeXVisual env b.name) collision b.name
  return ⟨writeXLink env b, v, c⟩

/-- The links of the document, to_urdf.cpp:55-219. -/
def writeXVLinks (env : ParserEnv K) (visual collision : VMap K) (bodies : List (Body K)) : Res (List (XVLink K)) :=
  bodies.mapM (writeXVLink env visual collision)

/-! ### YAML documents -/

/-- `material: {name, color: {rgba}, texture: {filename}}`; a list or a text is there if the node can be converted to it. -/
structure YMaterial (K : Type) where
  name : Option String
  color : Option (Option (List K))
  texture : Option (Option String)
  deriving DecidableEq, Repr

/-- An entry of the map `geometry`. -/
inductive YGeometry (K : Type) where
  | mesh (filename : Option String) (scale : Option (List K))
  | box (size : Option (List K))
  | cylinder (radius length : Option K)
  | sphere (radius : Option K)
  | superellipsoid (size : Option (List K)) (epsilon1 epsilon2 : Option K)
  | other
  deriving DecidableEq, Repr

/-- An element of `visual` or `collision`; `geometry` is the sequence of the entries of the map. -/
structure YVisual (K : Type) where
  name : Option String
  frame : Option (YFrame K)
  geometry : Option (List (YGeometry K))
  material : Option (YMaterial K)
  deriving DecidableEq, Repr

/-- An element of `links` with the keys that are not in `YLink`. -/
structure YVLink (K : Type) where
  link : YLink K
  visuals : List (YVisual K)
  collisions : List (YVisual K)
  deriving DecidableEq, Repr

/-! ### yaml.cpp -/

/-- `parseMaterial(material, out, cache)` with `cache` true, yaml.cpp:245-291: the new value of `out`. A `color` without a list of numbers
throws. -/
def yamlMaterial (cache : SMap (Material K)) (m : YMaterial K) (out : Material K) : Res (Material K) :=
  let name := m.name.getD ""
  if name = "" then .ok out
  else
    let out := (cache.find name).getD out
    match m.color with
    | some none => .error .runtimeError
    | some (some [r, g, b, a]) => .ok ⟨.COLOR, .color r g b a⟩
    | some (some _) => .ok out
    | none =>
      match m.texture with
      | some f => if f.getD "" = "" then .ok out else .ok ⟨.TEXTURE, .texture (f.getD "")⟩
      | none => .ok out

/-- `parseMaterial(material)`, yaml.cpp:231-243, for an element of `materials`, yaml.cpp:85-92: `materials_[name]` makes an entry if there is none,
which is then `out` and in the cache. -/
def yamlCache (cache : SMap (Material K)) (m : YMaterial K) : Res (SMap (Material K)) :=
  let name := m.name.getD ""
  if name = "" then .ok cache
  else do
    let old := (cache.find name).getD Material.none
    let out ← yamlMaterial (cache.set name old) m old
    return cache.set name out

/-- `Eigen::Vector3d(list.data())`, yaml.cpp:337 and 393: reads three numbers, whatever the size of the list. The test that follows compares
the size of the `Vector3d` with three and is always false. -/
def vecOfData (l : List K) : Res (Vec3 K) := do
  let x ← rd l 0
  let y ← rd l 1
  let z ← rd l 2
  return ⟨x, y, z⟩

/-- One turn of the loop of `parseGeometry`, yaml.cpp:299-413. -/
def yamlGeometryStep (_ : Geometry K) (g : YGeometry K) : Res (Geometry K) :=
  match g with
  | .mesh filename scale =>
    match filename with
    | none => .error .runtimeError
    | some f => do
      let s ← scaleOf (scale.getD [1])
      return ⟨.MESH, .mesh f s⟩
  | .box size =>
    match size with
    | none => .error .runtimeError
    | some l => do
      let v ← vecOfData l
      return ⟨.BOX, .box v⟩
  | .cylinder r l =>
    match r, l with
    | some r, some l => .ok ⟨.CYLINDER, .cylinder r l⟩
    | _, _ => .error .runtimeError
  | .sphere r =>
    match r with
    | some r => .ok ⟨.SPHERE, .sphere r⟩
    | none => .error .runtimeError
  | .superellipsoid size e1 e2 =>
    match size with
    | none => .error .runtimeError
    | some l => do
      let v ← vecOfData l
      match e1, e2 with
      | some e1, some e2 => return ⟨.SUPERELLIPSOID, .superellipsoid v e1 e2⟩
      | _, _ => .error .runtimeError
  | .other => .error .runtimeError

/-- `parseGeometry(geometry, data)`, yaml.cpp:293-416: `none` when the function returns `false`. -/
def yamlGeometry (g : Option (List (YGeometry K))) : Res (Option (Geometry K)) :=
  match g with
  | none => .ok none
  | some l => do
    let d ← l.foldlM yamlGeometryStep Geometry.empty
    return if l.isEmpty then none else some d

/-- The visual of one turn of the loop of `parseVisuals(visuals, data, name)`, yaml.cpp:425-435: `none` if it has no geometry. -/
def yamlVisual (env : ParserEnv K) (degrees : Bool) (cache : SMap (Material K)) (v : YVisual K) : Res (Option (Visual K)) := do
  let (xyz, rpy) ← yamlFrame env degrees v.frame
  let material ← match v.material with
    | none => .ok Material.none
    | some m => yamlMaterial cache m Material.none
  let g ← yamlGeometry v.geometry
  return g.map fun g => ⟨v.name.getD "", ⟨yamlRPY rpy.x rpy.y rpy.z, xyz⟩, g, material⟩

/-- One turn of the loop of `parseVisuals(visuals, data, name)`, yaml.cpp:418-440. -/
def yamlPush (env : ParserEnv K) (degrees : Bool) (cache : SMap (Material K)) (name : String) (data : VMap K) (v : YVisual K) :
    Res (VMap K) := do
  let v ← yamlVisual env degrees cache v
  match v with
  | some v => return data.push name v
  | none => return data

/-- The data members of `RBDynFromYAML` used here: the number of the link, `res.visual` and `res.collision`. -/
structure YVSt (K : Type) where
  linkIdx : Nat
  visual : VMap K
  collision : VMap K

/-- The visuals and collisions of a link, `parseLink`, yaml.cpp:442-484 and 509. -/
def yamlLinkVisuals (env : ParserEnv K) (params : ParserParams) (degrees : Bool) (cache : SMap (Material K)) (s : YVSt K) (l : YVLink K) :
    Res (YVSt K) := do
  let name := l.link.name.getD ("link" ++ toString s.linkIdx)
  if params.removeVirtual && l.link.inertial.isNone then return s
  if name ∈ params.filtered && params.removeFiltered then return s
  let visual ← l.visuals.foldlM (yamlPush env degrees cache name) s.visual
  let collision ← l.collisions.foldlM (yamlPush env degrees cache name) s.collision
  return ⟨s.linkIdx + 1, visual, collision⟩

/-- `res.visual` and `res.collision` after the constructor of `RBDynFromYAML`: the materials, yaml.cpp:85-92, then the links,
yaml.cpp:110-113. -/
def yamlVisuals (env : ParserEnv K) (params : ParserParams) (degrees : Bool) (materials : List (YMaterial K)) (links : List (YVLink K)) :
    Res (VMap K × VMap K) := do
  let cache ← materials.foldlM yamlCache []
  let s ← links.foldlM (yamlLinkVisuals env params degrees cache) ⟨1, [], []⟩
  return (s.visual, s.collision)

/-! ### to_yaml.cpp -/

/-- The material, to_yaml.cpp:125-145. -/
def writeYMaterial (name : String) (m : Material K) : Res (Option (YMaterial K)) :=
  match m.type with
  | .NONE => .ok none
  | .COLOR =>
    match m.data with
    | .color r g b a => .ok (some ⟨some name, some (some [r, g, b, a]), none⟩)
    | _ => .error .runtimeError
  | .TEXTURE =>
    match m.data with
    | .texture f => .ok (some ⟨some name, none, some (some (prefixPath f))⟩)
    | _ => .error .runtimeError

/-- The geometry, to_yaml.cpp:147-197. -/
def writeYGeometry (g : Geometry K) : Res (List (YGeometry K)) :=
  match g.type with
  | .BOX => match g.data with
    | .box size => .ok [.box (some [size.x, size.y, size.z])]
    | _ => .error .runtimeError
  | .CYLINDER => match g.data with
    | .cylinder r l => .ok [.cylinder (some r) (some l)]
    | _ => .error .runtimeError
  | .MESH => match g.data with
    | .mesh f s => .ok [.mesh (some (prefixPath f)) (some [s.x, s.y, s.z])]
    | _ => .error .runtimeError
  | .SPHERE => match g.data with
    | .sphere r => .ok [.sphere (some r)]
    | _ => .error .runtimeError
  | .SUPERELLIPSOID => match g.data with
    | .superellipsoid size e1 e2 => .ok [.superellipsoid (some [size.x, size.y, size.z]) (some e1) (some e2)]
    | _ => .error .runtimeError
  | .UNKNOWN => .ok []

/-- The element written for a visual, to_yaml.cpp:115-199; the name of the visual is not written. -/
def writeYVisual (env : ParserEnv K) (link : String) (i : Nat) (v : Visual K) : Res (YVisual K) := do
  let material ← writeYMaterial (materialName link i) v.material
  let geometry ← writeYGeometry v.geometry
  return ⟨none, writeFrame env v.origin, some geometry, material⟩

/-- The link written for a body, with its visual and collision elements, to_yaml.cpp:49-208. -/
def writeYVLink (env : ParserEnv K) (visual collision : VMap K) (b : Body K) : Res (YVLink K) := do
  let v ← writeVisuals (writeYVisual env b.name) visual b.name
  let c ← writeVisuals (writeYVisual env b.name) collision b.name
  return ⟨writeYLink env b, v, c⟩

/-- The links of the document, to_yaml.cpp:47-210. -/
def writeYVLinks (env : ParserEnv K) (visual collision : VMap K) (bodies : List (Body K)) : Res (List (YVLink K)) :=
  bodies.mapM (writeYVLink env visual collision)

end

end RBDyn
