import Verif.Lemmas.Visuals
import Verif.Props.Parsers

/-! Properties C59 and C60: visual and collision elements, geometries and materials. -/

namespace RBDyn
variable {K : Type} [Scalar K]

/-! ### C59: writing and reading back -/

/-- The tag of the geometry says which alternative its data hold. -/
def Geometry.Consistent (g : Geometry K) : Prop :=
  (g.type = .BOX ∧ ∃ s, g.data = .box s) ∨ (g.type = .CYLINDER ∧ ∃ r l, g.data = .cylinder r l) ∨
  (g.type = .SPHERE ∧ ∃ r, g.data = .sphere r) ∨ (g.type = .MESH ∧ ∃ f s, g.data = .mesh f s) ∨
  (g.type = .SUPERELLIPSOID ∧ ∃ s e1 e2, g.data = .superellipsoid s e1 e2)

/-- The tag of the material says which alternative its data hold. -/
def Material.Consistent (m : Material K) : Prop :=
  m.type = .NONE ∨ (m.type = .COLOR ∧ ∃ r g b a, m.data = .color r g b a) ∨ (m.type = .TEXTURE ∧ ∃ f, m.data = .texture f)

/-- The geometry with a scheme in front of the file name. -/
def Geometry.stored (g : Geometry K) : Geometry K :=
  ⟨g.type, match g.data with | .mesh f s => .mesh (prefixPath f) s | d => d⟩

/-- The material with a scheme in front of the file name. -/
def Material.stored (m : Material K) : Material K :=
  match m.type with
  | .NONE => Material.none
  | t => ⟨t, match m.data with | .texture f => .texture (prefixPath f) | d => d⟩

/-- What is expected of a visual after writing and reading: the same origin, geometry and material, except that file names get a scheme and that
the element has lost its name. -/
def Visual.stored (v : Visual K) : Visual K := ⟨"", v.origin, v.geometry.stored, v.material.stored⟩

/-- The geometry is one of the kinds the formats know. -/
def Visual.known (v : Visual K) : Bool := v.geometry.type ≠ .UNKNOWN

/-- What is expected for the body `n` after writing and reading: the visuals of a known kind, in order. A body without any has no entry. -/
def VMap.stored (m : VMap K) (names : List String) (n : String) : Option (List (Visual K)) :=
  if n ∈ names then
    match SMap.find m n with
    | none => none
    | some l => if l.filter Visual.known = [] then none else some ((l.filter Visual.known).map Visual.stored)
  else none

/-- The numbers of a visual, apart from its origin. -/
def Visual.numbers (v : Visual K) : List K :=
  (match v.geometry.data with
    | .box s => [s.x, s.y, s.z]
    | .cylinder r l => [r, l]
    | .mesh _ s => [s.x, s.y, s.z]
    | .sphere r => [r]
    | .superellipsoid s e1 e2 => [s.x, s.y, s.z, e1, e2]) ++
  match v.material.data with
    | .color r g b a => [r, g, b, a]
    | .texture _ => []

/-- The visual can be written in YAML. -/
structure Visual.Writable (env : ParserEnv K) (v : Visual K) : Prop where
  geometry : v.geometry.Consistent
  material : v.material.Consistent
  origin : v.origin.Writable env

/-- The visual can be written in URDF. -/
structure Visual.WritableX (env : ParserEnv K) (v : Visual K) : Prop where
  geometry : v.geometry.Consistent
  material : v.material.Consistent
  origin : v.origin.WritableX env
  prints : env.Prints v.numbers

omit [Scalar K] in
private theorem prints_append {env : ParserEnv K} {l m : List K} (h : env.Prints (l ++ m)) : env.Prints l ∧ env.Prints m :=
  ⟨fun x hx => h x (List.mem_append_left _ hx), fun x hx => h x (List.mem_append_right _ hx)⟩

private theorem writeOrigin_read {env : ParserEnv K} {X : PTransform K} (h : X.WritableX env) : urdfOrigin (writeOrigin env X) = .ok X := by
  have hw : ([X].filterMap (writeOrigin env)).head? = writeOrigin env X := by
    rw [List.filterMap_cons]
    cases writeOrigin env X <;> rfl
  have := urdfOrigin_write h
  rwa [hw] at this

private theorem writeXGeometry_read {env : ParserEnv K} {v : Visual K} (h : v.geometry.Consistent) (hp : env.Prints v.numbers) :
    ∃ x, writeXGeometry env v.geometry = .ok x ∧ urdfGeometry x = .ok v.geometry.stored := by
  obtain ⟨n, X, ⟨t, d⟩, m⟩ := v
  have hq := (prints_append hp).1
  clear hp
  rcases h with ⟨ht, s, hd⟩ | ⟨ht, r, l, hd⟩ | ⟨ht, r, hd⟩ | ⟨ht, f, s, hd⟩ | ⟨ht, s, e1, e2, hd⟩ <;>
  · dsimp only at ht hd hq
    subst ht hd
    simp only [ParserEnv.Prints, List.mem_cons, forall_eq_or_imp, List.not_mem_nil, false_imp_iff, implies_true, and_true] at hq
    refine ⟨_, rfl, ?_⟩
    simp [urdfGeometry, geometryFromMesh, scaleOf, attrToVector, writeVec, Geometry.stored, hq] <;> rfl

private theorem writeXMaterial_read {env : ParserEnv K} {v : Visual K} (h : v.material.Consistent) (hp : env.Prints v.numbers) (name : String) :
    ∃ x, writeXMaterial env name v.material = .ok x ∧
      (match x with | none => Material.none | some m => (materialFromTag [] m).getD Material.none) = v.material.stored := by
  obtain ⟨n, X, g, ⟨t, d⟩⟩ := v
  have hq := (prints_append hp).2
  clear hp
  rcases h with ht | ⟨ht, r, g, b, a, hd⟩ | ⟨ht, f, hd⟩
  · dsimp only at ht
    subst ht
    exact ⟨_, rfl, rfl⟩
  · dsimp only at ht hd hq
    subst ht hd
    simp only [ParserEnv.Prints, List.mem_cons, forall_eq_or_imp, List.not_mem_nil, false_imp_iff, implies_true, and_true] at hq
    refine ⟨_, rfl, ?_⟩
    simp [materialFromTag, Material.stored, hq]
  · dsimp only at ht hd hq
    subst ht hd
    refine ⟨_, rfl, ?_⟩
    simp [materialFromTag, Material.stored]

private theorem writeXVisual_read {env : ParserEnv K} {v : Visual K} (h : v.WritableX env) (link : String) (i : Nat) :
    ∃ x, writeXVisual env link i v = .ok x ∧ visualFromTag [] x = .ok (some v.stored) := by
  obtain ⟨g, hg, hg'⟩ := writeXGeometry_read h.geometry h.prints
  obtain ⟨m, hm, hm'⟩ := writeXMaterial_read h.material h.prints (materialName link i)
  refine ⟨⟨none, writeOrigin env v.origin, some g, m⟩, ?_, ?_⟩
  · unfold writeXVisual
    rw [hm, Res.bind_ok, hg]; rfl
  · unfold visualFromTag
    dsimp only
    rw [writeOrigin_read h.origin, Res.bind_ok, hg', Res.bind_ok]
    unfold Visual.stored
    rw [← hm']
    cases m <;> rfl

private theorem writeFrame_read {env : ParserEnv K} {X : PTransform K} (h : X.Writable env) :
    ∃ p : Vec3 K × Vec3 K, yamlFrame env false (writeFrame env X) = .ok p ∧ (⟨yamlRPY p.2.x p.2.y p.2.z, p.1⟩ : PTransform K) = X := by
  have hw : ([X].filterMap (writeFrame env)).head? = writeFrame env X := by
    rw [List.filterMap_cons]
    cases writeFrame env X <;> rfl
  have := yamlFrame_write h
  rw [hw] at this
  refine ⟨_, this, ?_⟩
  have he : yamlRPY (env.euler X.E.tr).x (env.euler X.E.tr).y (env.euler X.E.tr).z = X.E := by
    unfold yamlRPY
    rw [h.euler]
    exact Mat3.tr_tr _
  dsimp only
  rw [he]

private theorem writeYGeometry_read {v : Visual K} (h : v.geometry.Consistent) :
    ∃ x, writeYGeometry v.geometry = .ok x ∧ yamlGeometry (some x) = .ok (some v.geometry.stored) := by
  obtain ⟨n, X, ⟨t, d⟩, m⟩ := v
  rcases h with ⟨ht, s, hd⟩ | ⟨ht, r, l, hd⟩ | ⟨ht, r, hd⟩ | ⟨ht, f, s, hd⟩ | ⟨ht, s, e1, e2, hd⟩ <;>
  · dsimp only at ht hd
    subst ht hd
    exact ⟨_, rfl, rfl⟩

private theorem HasScheme.ne_empty {p : String} (h : HasScheme p) : p ≠ "" := by
  rintro rfl
  rcases h with ⟨r, h⟩ | ⟨r, h⟩ <;>
  · have := congrArg String.toList h
    rw [String.toList_append] at this
    simp at this

private theorem materialName_ne (link : String) (i : Nat) : materialName link i ≠ "" := by
  intro h
  have := congrArg String.toList h
  unfold materialName at this
  rw [String.toList_append, String.toList_append, String.toList_append] at this
  simp at this

private theorem writeYMaterial_read {v : Visual K} (h : v.material.Consistent) (link : String) (i : Nat) :
    ∃ x, writeYMaterial (materialName link i) v.material = .ok x ∧
      (match x with | none => .ok Material.none | some m => yamlMaterial [] m Material.none) = (.ok v.material.stored : Res _) := by
  obtain ⟨n, X, g, ⟨t, d⟩⟩ := v
  rcases h with ht | ⟨ht, r, g, b, a, hd⟩ | ⟨ht, f, hd⟩
  · dsimp only at ht
    subst ht
    exact ⟨_, rfl, rfl⟩
  · dsimp only at ht hd
    subst ht hd
    refine ⟨_, rfl, ?_⟩
    simp [yamlMaterial, Material.stored, materialName_ne]
  · dsimp only at ht hd
    subst ht hd
    refine ⟨_, rfl, ?_⟩
    simp [yamlMaterial, Material.stored, materialName_ne, HasScheme.ne_empty (C50_prefix_path f).2.1]

private theorem writeYVisual_read {env : ParserEnv K} {v : Visual K} (h : v.Writable env) (link : String) (i : Nat) :
    ∃ x, writeYVisual env link i v = .ok x ∧ yamlVisual env false [] x = .ok (some v.stored) := by
  obtain ⟨g, hg, hg'⟩ := writeYGeometry_read h.geometry
  obtain ⟨m, hm, hm'⟩ := writeYMaterial_read h.material link i
  obtain ⟨p, hp, hp'⟩ := writeFrame_read h.origin
  refine ⟨⟨none, writeFrame env v.origin, some g, m⟩, ?_, ?_⟩
  · unfold writeYVisual
    rw [hm, Res.bind_ok, hg]; rfl
  · unfold yamlVisual
    dsimp only
    rw [hp, Res.bind_ok]
    obtain ⟨p1, p2⟩ := p
    dsimp only at hp' ⊢
    rw [hp', hg']
    unfold Visual.stored
    cases m with
    | none =>
      injection hm' with hm'
      rw [← hm']
      rfl
    | some m =>
      dsimp only at hm' ⊢
      rw [hm']
      rfl

/-- The loop of the writers. -/
private theorem writeVisuals_read {D : Type} {w : Nat → Visual K → Res D} {f : D → Res (Option (Visual K))} {m : VMap K} {n : String}
    (h : ∀ l, SMap.find m n = some l → ∀ v ∈ l, v.known = true → ∀ i, ∃ x, w i v = .ok x ∧ f x = .ok (some v.stored)) :
    ∃ xs, writeVisuals w m n = .ok xs ∧ (∀ x ∈ xs, ∃ o, f x = .ok o) ∧
      xs.filterMap (fun x => (f x).val?) = match SMap.find m n with | none => [] | some l => (l.filter Visual.known).map Visual.stored := by
  unfold writeVisuals
  cases hm : SMap.find m n with
  | none => exact ⟨[], rfl, by simp, rfl⟩
  | some l =>
    have h := h l hm
    dsimp only
    obtain ⟨xs, hxs, hP⟩ := foldlM_range_inv (fun acc i => (do
        let v ← rd l i
        if v.geometry.type = .UNKNOWN then return acc
        let x ← w i v
        return acc ++ [x] : Res (List D)))
      (fun k acc => (∀ x ∈ acc, ∃ o, f x = .ok o) ∧ acc.filterMap (fun x => (f x).val?) = ((l.take k).filter Visual.known).map Visual.stored)
      l.length [] ⟨by simp, by simp⟩ (by
        rintro k acc hk ⟨h1, h2⟩
        have hv : l[k]? = some l[k] := List.getElem?_eq_getElem hk
        have ht : l.take (k + 1) = l.take k ++ [l[k]] := by rw [List.take_add_one, hv]; rfl
        beta_reduce
        rw [rd_of_getElem? hv, Res.bind_ok, ht, List.filter_append, List.map_append]
        by_cases hu : l[k].geometry.type = .UNKNOWN
        · refine ⟨acc, by rw [if_pos hu]; rfl, h1, ?_⟩
          have : [l[k]].filter Visual.known = [] := by simp [Visual.known, hu]
          rw [this, h2]; simp
        · have hkn : l[k].known = true := by simp [Visual.known, hu]
          obtain ⟨x, hx, hfx⟩ := h l[k] (List.getElem_mem hk) hkn k
          refine ⟨acc ++ [x], by rw [if_neg hu, hx]; rfl, ?_, ?_⟩
          · intro y hy
            rcases List.mem_append.1 hy with hy | hy
            · exact h1 y hy
            · rw [List.mem_singleton.1 hy]; exact ⟨_, hfx⟩
          · have : [l[k]].filter Visual.known = [l[k]] := by simp [hkn]
            rw [this, List.filterMap_append, h2]
            simp [hfx, Res.val?])
    rw [List.take_length] at hP
    exact ⟨xs, hxs, hP⟩

private theorem mapM_ok {α β : Type} {f : α → Res β} {P : α → β → Prop} :
    ∀ {l : List α}, (∀ a ∈ l, ∃ b, f a = .ok b ∧ P a b) → ∃ bs, l.mapM f = .ok bs ∧ List.Forall₂ P l bs
  | [], _ => ⟨[], rfl, .nil⟩
  | a :: l, h => by
    obtain ⟨b, hb, hP⟩ := h a (List.mem_cons_self ..)
    obtain ⟨bs, hbs, hPs⟩ := mapM_ok fun x hx => h x (List.mem_cons_of_mem _ hx)
    refine ⟨b :: bs, ?_, .cons hP hPs⟩
    rw [List.mapM_cons, hb, Res.bind_ok, hbs]; rfl

private theorem of_eq_nil {α D : Type} {name : α → String} {R : α → VItem D → Prop} {part : VItem D → List D} {as : List α} {bs : List (VItem D)}
    (h : List.Forall₂ R as bs) (hR : ∀ a b, R a b → b.name = name a) (n : String) (hm : n ∉ as.map name) : VItem.of part bs n = [] := by
  induction h with
  | nil => rfl
  | @cons a' b' as bs h' h ih =>
    rw [VItem.of_cons, if_neg (by rw [hR a' b' h']; exact fun e => hm (by rw [e]; simp)), List.nil_append]
    exact ih fun hx => hm (by simp at hx ⊢; exact Or.inr hx)

private theorem forall₂_right {α β : Type} {R : α → β → Prop} {as : List α} {bs : List β} (h : List.Forall₂ R as bs) :
    ∀ b ∈ bs, ∃ a ∈ as, R a b := by
  induction h with
  | nil => exact fun b hb => absurd hb List.not_mem_nil
  | @cons a b as bs hab h ih =>
    intro c hc
    rcases List.mem_cons.1 hc with rfl | hc
    · exact ⟨a, by simp, hab⟩
    · obtain ⟨d, hd, hdc⟩ := ih c hc
      exact ⟨d, List.mem_cons_of_mem _ hd, hdc⟩

omit [Scalar K] in
/-- With distinct names the elements of the link `n` are those written for the body `n`. -/
private theorem of_eq {α D : Type} {name : α → String} {R : α → VItem D → Prop} {part : VItem D → List D} {g : List D → List (Visual K)}
    (hg : g [] = []) {e : α → List (Visual K)} {as : List α} {bs : List (VItem D)} (h : List.Forall₂ R as bs) (hR : ∀ a b, R a b → b.name = name a ∧ g (part b) = e a)
    (hn : (as.map name).Nodup) (n : String) :
    (∀ a ∈ as, name a = n → g (VItem.of part bs n) = e a) ∧ (n ∉ as.map name → g (VItem.of part bs n) = []) := by
  induction h with
  | nil => exact ⟨fun a ha => absurd ha List.not_mem_nil, fun _ => hg⟩
  | @cons a b as bs hab h ih =>
    rw [List.map_cons, List.nodup_cons] at hn
    obtain ⟨ih1, ih2⟩ := ih hn.2
    obtain ⟨hb, hge⟩ := hR a b hab
    have hnot := of_eq_nil (name := name) (part := part) h (fun a b h => (hR a b h).1) n
    rw [VItem.of_cons, hb]
    refine ⟨fun c hc hcn => ?_, fun hm => ?_⟩
    · rcases List.mem_cons.1 hc with rfl | hc
      · rw [if_pos hcn.symm, hnot (hcn ▸ hn.1), List.append_nil]
        exact hge
      · rw [if_neg (fun e => hn.1 (by rw [← e, ← hcn]; exact List.mem_map_of_mem hc)), List.nil_append]
        exact ih1 c hc hcn
    · rw [if_neg (fun e => hm (by rw [e]; simp)), List.nil_append]
      exact ih2 fun hx => hm (by simp at hx ⊢; exact Or.inr hx)

/-- The map read from the written items is the expected one. -/
private theorem holds_stored {D : Type} {f : D → Res (Option (Visual K))} {m m' : VMap K} {bodies : List (Body K)} {items : List (VItem D)}
    {part : VItem D → List D} (hn : (bodies.map Body.name).Nodup)
    (h : List.Forall₂ (fun (b : Body K) (i : VItem D) => i.name = b.name ∧ (part i).filterMap (fun x => (f x).val?) =
      match SMap.find m b.name with | none => [] | some l => (l.filter Visual.known).map Visual.stored) bodies items)
    (hm : m'.Holds fun n => (VItem.of part items n).filterMap fun x => (f x).val?) (n : String) :
    SMap.find m' n = m.stored (bodies.map Body.name) n := by
  have key := of_eq (g := fun l => l.filterMap fun x => (f x).val?) rfl h (fun a b h => h) hn n
  rw [hm n]
  beta_reduce
  unfold VMap.stored
  by_cases hb : n ∈ bodies.map Body.name
  · obtain ⟨b, hbm, rfl⟩ := List.mem_map.1 hb
    have := key.1 b hbm rfl
    rw [if_pos hb, this]
    cases SMap.find m b.name with
    | none => rfl
    | some l => simp
  · have := key.2 hb
    rw [if_neg hb, this]; rfl

omit [Scalar K] in
private theorem filter_eq_self_of_params {params : ParserParams} (hf : params.filtered = []) (hr : params.removeVirtual = false)
    (links : List (XVLink K)) : links.filter (keepXVLink params) = links :=
  List.filter_eq_self.2 fun l _ => by simp [keepXVLink, hf, hr]

/-- **C59** for URDF. The links written by `to_urdf` are those of C47 with elements from which `from_urdf` reads, for every body, the visuals and
the collisions of a known kind in the same order, with the same origins, geometries and materials; file names get a scheme and element
names are lost. The conditions on the origins are those of C47. -/
theorem C59_urdf {env : ParserEnv K} {visual collision : VMap K} {bodies : List (Body K)} (hn : (bodies.map Body.name).Nodup)
    (h : ∀ b ∈ bodies, ∀ m ∈ [visual, collision], ∀ l, SMap.find m b.name = some l → ∀ v ∈ l, v.known = true → v.WritableX env)
    {params : ParserParams} (hf : params.filtered = []) (hr : params.removeVirtual = false) :
    ∃ links visual' collision', writeXVLinks env visual collision bodies = .ok links ∧
      links.map XVLink.link = bodies.map (writeXLink env) ∧ urdfVisuals params [] links = .ok (visual', collision') ∧
      ∀ n, SMap.find visual' n = visual.stored (bodies.map Body.name) n ∧ SMap.find collision' n = collision.stored (bodies.map Body.name) n := by
  have hw : ∀ b ∈ bodies, ∃ x, writeXVLink env visual collision b = .ok x ∧ (x.link = writeXLink env b ∧
      (∀ d ∈ x.visuals ++ x.collisions, ∃ o, visualFromTag [] d = .ok o) ∧
      (x.visuals.filterMap (fun x => (visualFromTag [] x).val?) =
        match SMap.find visual b.name with | none => [] | some l => (l.filter Visual.known).map Visual.stored) ∧
      (x.collisions.filterMap (fun x => (visualFromTag [] x).val?) =
        match SMap.find collision b.name with | none => [] | some l => (l.filter Visual.known).map Visual.stored)) := by
    intro b hb
    obtain ⟨v, hv, hv1, hv2⟩ := writeVisuals_read (w := writeXVisual env b.name) (f := visualFromTag []) (m := visual) (n := b.name)
      fun l hl v hv hk i => writeXVisual_read (h b hb visual (by simp) l hl v hv hk) b.name i
    obtain ⟨c, hc, hc1, hc2⟩ := writeVisuals_read (w := writeXVisual env b.name) (f := visualFromTag []) (m := collision) (n := b.name)
      fun l hl v hv hk i => writeXVisual_read (h b hb collision (by simp) l hl v hv hk) b.name i
    refine ⟨⟨writeXLink env b, v, c⟩, ?_, rfl, ?_, hv2, hc2⟩
    · unfold writeXVLink
      rw [hv, Res.bind_ok, hc]; rfl
    · intro d hd
      rcases List.mem_append.1 hd with hd | hd
      · exact hv1 d hd
      · exact hc1 d hd
  obtain ⟨links, hlinks, hall⟩ := mapM_ok hw
  have hitems : List.Forall₂ (fun (b : Body K) (i : VItem (XVisual K)) => i.name = b.name ∧
      (∀ d ∈ i.visuals ++ i.collisions, ∃ o, visualFromTag [] d = .ok o) ∧
      (i.visuals.filterMap (fun x => (visualFromTag [] x).val?) =
        match SMap.find visual b.name with | none => [] | some l => (l.filter Visual.known).map Visual.stored) ∧
      (i.collisions.filterMap (fun x => (visualFromTag [] x).val?) =
        match SMap.find collision b.name with | none => [] | some l => (l.filter Visual.known).map Visual.stored))
      bodies (xItems params links) := by
    unfold xItems
    rw [filter_eq_self_of_params hf hr, List.forall₂_map_right_iff]
    exact hall.imp fun b l hbl => ⟨by show l.link.name = _; rw [hbl.1]; rfl, hbl.2⟩
  obtain ⟨s', hs', hv, hc⟩ := gather_ok (f := visualFromTag []) (items := xItems params links) (s := ([], [])) VMap.holds_nil VMap.holds_nil
    (by
      intro i hi
      obtain ⟨b, _, hb⟩ := forall₂_right hitems i hi
      exact hb.2.1)
  refine ⟨links, s'.1, s'.2, hlinks, ?_, by rw [urdfVisuals_eq]; exact hs', fun n => ⟨?_, ?_⟩⟩
  · have := hall.imp (R := _) (S := fun b l => writeXLink env b = XVLink.link l) fun b l h => h.1.symm
    clear hw hitems hlinks hs' hv hc h hn hall
    induction this with
    | nil => rfl
    | cons h _ ih => rw [List.map_cons, List.map_cons, ih, h]
  · exact holds_stored hn (hitems.imp fun b i h => ⟨h.1, h.2.2.1⟩) (by simpa using hv) n
  · exact holds_stored hn (hitems.imp fun b i h => ⟨h.1, h.2.2.2⟩) (by simpa using hc) n

omit [Scalar K] in
private theorem yItems_map {params : ParserParams} (hf : params.filtered = []) (hr : params.removeVirtual = false) :
    ∀ (i : Nat) (links : List (YVLink K)), (∀ l ∈ links, l.link.name.isSome = true) →
      yItems params i links = links.map fun l => ⟨l.link.name.getD "", l.visuals, l.collisions⟩
  | _, [], _ => rfl
  | i, l :: ls, h => by
    unfold yItems NLink.kept
    dsimp only
    rw [hf, hr, if_pos (by simp), yItems_map hf hr (i + 1) ls fun x hx => h x (List.mem_cons_of_mem _ hx), List.map_cons]
    obtain ⟨n, hn⟩ := Option.isSome_iff_exists.1 (h l (List.mem_cons_self ..))
    rw [hn]; rfl

/-- **C59** for YAML, as for URDF, with the conditions of C48 on the origins: any rigid transform (see `C48_frame`). -/
theorem C59_yaml {env : ParserEnv K} {visual collision : VMap K} {bodies : List (Body K)} (hn : (bodies.map Body.name).Nodup)
    (h : ∀ b ∈ bodies, ∀ m ∈ [visual, collision], ∀ l, SMap.find m b.name = some l → ∀ v ∈ l, v.known = true → v.Writable env)
    {params : ParserParams} (hf : params.filtered = []) (hr : params.removeVirtual = false) :
    ∃ links visual' collision', writeYVLinks env visual collision bodies = .ok links ∧
      links.map YVLink.link = bodies.map (writeYLink env) ∧ yamlVisuals env params false [] links = .ok (visual', collision') ∧
      ∀ n, SMap.find visual' n = visual.stored (bodies.map Body.name) n ∧ SMap.find collision' n = collision.stored (bodies.map Body.name) n := by
  have hw : ∀ b ∈ bodies, ∃ x, writeYVLink env visual collision b = .ok x ∧ (x.link = writeYLink env b ∧
      (∀ d ∈ x.visuals ++ x.collisions, ∃ o, yamlVisual env false [] d = .ok o) ∧
      (x.visuals.filterMap (fun x => (yamlVisual env false [] x).val?) =
        match SMap.find visual b.name with | none => [] | some l => (l.filter Visual.known).map Visual.stored) ∧
      (x.collisions.filterMap (fun x => (yamlVisual env false [] x).val?) =
        match SMap.find collision b.name with | none => [] | some l => (l.filter Visual.known).map Visual.stored)) := by
    intro b hb
    obtain ⟨v, hv, hv1, hv2⟩ := writeVisuals_read (w := writeYVisual env b.name) (f := yamlVisual env false []) (m := visual) (n := b.name)
      fun l hl v hv hk i => writeYVisual_read (h b hb visual (by simp) l hl v hv hk) b.name i
    obtain ⟨c, hc, hc1, hc2⟩ := writeVisuals_read (w := writeYVisual env b.name) (f := yamlVisual env false []) (m := collision) (n := b.name)
      fun l hl v hv hk i => writeYVisual_read (h b hb collision (by simp) l hl v hv hk) b.name i
    refine ⟨⟨writeYLink env b, v, c⟩, ?_, rfl, ?_, hv2, hc2⟩
    · unfold writeYVLink
      rw [hv, Res.bind_ok, hc]; rfl
    · intro d hd
      rcases List.mem_append.1 hd with hd | hd
      · exact hv1 d hd
      · exact hc1 d hd
  obtain ⟨links, hlinks, hall⟩ := mapM_ok hw
  have hlink : links.map YVLink.link = bodies.map (writeYLink env) := by
    have := hall.imp (R := _) (S := fun b l => writeYLink env b = YVLink.link l) fun b l h => h.1.symm
    clear hw hlinks h hn hall
    induction this with
    | nil => rfl
    | cons h _ ih => rw [List.map_cons, List.map_cons, ih, h]
  have hnames : ∀ l ∈ links, l.link.name.isSome = true := by
    intro l hl
    obtain ⟨b, _, hb⟩ := forall₂_right hall l hl
    rw [hb.1]; rfl
  have hitems : List.Forall₂ (fun (b : Body K) (i : VItem (YVisual K)) => i.name = b.name ∧
      (∀ d ∈ i.visuals ++ i.collisions, ∃ o, yamlVisual env false [] d = .ok o) ∧
      (i.visuals.filterMap (fun x => (yamlVisual env false [] x).val?) =
        match SMap.find visual b.name with | none => [] | some l => (l.filter Visual.known).map Visual.stored) ∧
      (i.collisions.filterMap (fun x => (yamlVisual env false [] x).val?) =
        match SMap.find collision b.name with | none => [] | some l => (l.filter Visual.known).map Visual.stored))
      bodies (yItems params 1 links) := by
    rw [yItems_map hf hr 1 links hnames, List.forall₂_map_right_iff]
    exact hall.imp fun b l hbl => ⟨by show l.link.name.getD "" = _; rw [hbl.1]; rfl, hbl.2⟩
  obtain ⟨s', hs', hv, hc⟩ := gather_ok (f := yamlVisual env false []) (items := yItems params 1 links) (s := ([], []))
    VMap.holds_nil VMap.holds_nil (by
      intro i hi
      obtain ⟨b, _, hb⟩ := forall₂_right hitems i hi
      exact hb.2.1)
  refine ⟨links, s'.1, s'.2, hlinks, hlink, by rw [yamlVisuals_eq]; exact hs', fun n => ⟨?_, ?_⟩⟩
  · exact holds_stored hn (hitems.imp fun b i h => ⟨h.1, h.2.2.1⟩) (by simpa using hv) n
  · exact holds_stored hn (hitems.imp fun b i h => ⟨h.1, h.2.2.2⟩) (by simpa using hc) n

/-- **C59**, once is enough: writing and reading a second time changes nothing any more. -/
theorem C59_stable (m m' : VMap K) (names : List String) (h : ∀ n, SMap.find m' n = m.stored names n)
    (hc : ∀ n l, SMap.find m n = some l → ∀ v ∈ l, v.known = true → v.material.Consistent) (n : String) :
    m'.stored names n = SMap.find m' n := by
  have hs : ∀ v : Visual K, v.material.Consistent → v.stored.stored = v.stored := by
    rintro ⟨name, X, ⟨gt, gd⟩, ⟨mt, md⟩⟩ hm
    have hg : (Geometry.stored (⟨gt, gd⟩ : Geometry K)).stored = Geometry.stored ⟨gt, gd⟩ := by
      cases gd <;> simp [Geometry.stored, (C50_prefix_path _).2.2.1]
    have hm : (Material.stored (⟨mt, md⟩ : Material K)).stored = Material.stored ⟨mt, md⟩ := by
      cases mt <;> cases md <;> simp [Material.stored, Material.none, (C50_prefix_path _).2.2.1]
    simp only [Visual.stored, hg, hm]
  rw [h n]
  conv_lhs => unfold VMap.stored
  rw [h n]
  unfold VMap.stored
  by_cases hn : n ∈ names
  · simp only [if_pos hn]
    cases hm : SMap.find m n with
    | none => rfl
    | some l =>
      dsimp only
      by_cases hl : l.filter Visual.known = []
      · rw [if_pos hl]
      · rw [if_neg hl]
        dsimp only
        have hk : (((l.filter Visual.known).map Visual.stored).filter Visual.known) = (l.filter Visual.known).map Visual.stored := by
          rw [List.filter_eq_self]
          intro v hv
          obtain ⟨w, hw, rfl⟩ := List.mem_map.1 hv
          have := (List.mem_filter.1 hw).2
          unfold Visual.known at this ⊢
          exact this
        rw [hk, if_neg (by simpa using hl), List.map_map]
        congr 1
        apply List.map_congr_left
        intro v hv
        have hv := List.mem_filter.1 hv
        exact hs v (hc n l hm v hv.1 hv.2)
  · simp [if_neg hn]


/-! ### C60: what the readers collect -/

/-- The material an element describes by itself in URDF: its color if it has one, otherwise its texture. -/
def XMaterial.own (m : XMaterial K) : Option (Material K) :=
  match m.name, m.color, m.texture with
  | none, _, _ => none
  | some _, some none, _ => some ⟨.COLOR, .color 1 0 0 1⟩
  | some _, some (some [r, g, b, a]), _ => some ⟨.COLOR, .color r g b a⟩
  | some _, some (some _), _ => none
  | some _, none, some (some f) => some ⟨.TEXTURE, .texture f⟩
  | some _, none, _ => none

private theorem materialFromTag_eq (cache : SMap (Material K)) (m : XMaterial K) :
    materialFromTag cache m = m.name.bind fun n => (cache.find n).or m.own := by
  obtain ⟨name, color, texture⟩ := m
  cases name with
  | none => rfl
  | some n =>
    unfold materialFromTag XMaterial.own
    dsimp only [Option.bind_some]
    cases cache.find n with
    | some m => rfl
    | none =>
      rcases color with _ | _ | l
      · rcases texture with _ | _ | f <;> rfl
      · rfl
      · rcases l with _ | ⟨a, _ | ⟨b, _ | ⟨c, _ | ⟨d, _ | ⟨e, l⟩⟩⟩⟩⟩ <;> rfl

private theorem find_cacheMaterials (n : String) : ∀ (materials : List (XMaterial K)) (cache : SMap (Material K)),
    (materials.foldl cacheMaterial cache).find n =
      (cache.find n).or ((materials.filter fun m => m.name = some n).findSome? XMaterial.own)
  | [], cache => by simp
  | m :: ms, cache => by
    rw [List.foldl_cons, find_cacheMaterials n ms]
    have hc : (cacheMaterial cache m).find n = (cache.find n).or (if m.name = some n then m.own else none) := by
      unfold cacheMaterial
      rw [materialFromTag_eq]
      cases hn : m.name with
      | none => simp
      | some k =>
        dsimp only [Option.bind_some]
        cases hk : cache.find k with
        | some x =>
          dsimp only [Option.some_or]
          rw [if_pos (by rw [hk]; rfl)]
          by_cases e : k = n
          · subst e; rw [hk]; rfl
          · simp [e]
        | none =>
          dsimp only [Option.none_or]
          cases ho : m.own with
          | none => simp
          | some x =>
            dsimp only
            rw [if_neg (by rw [hk]; simp), SMap.find_set]
            by_cases e : k = n
            · subst e; simp [hk]
            · simp [e, Ne.symm e, Option.some.injEq]
    rw [hc, Option.or_assoc]
    congr 1
    by_cases e : m.name = some n
    · rw [if_pos e, List.filter_cons_of_pos (by simpa using e), List.findSome?_cons]
      cases m.own <;> rfl
    · rw [if_neg e, List.filter_cons_of_neg (by simpa using e)]; rfl

/-- **C60**, materials in URDF: an element that names a material gets the first valid definition of that name among those of the robot, otherwise
its own; an element without a name for its material gets none. -/
theorem C60_urdf_material (materials : List (XMaterial K)) (m : XMaterial K) :
    materialFromTag (materials.foldl cacheMaterial []) m =
      m.name.bind fun n => ((materials.filter fun d => d.name = some n).findSome? XMaterial.own).or m.own := by
  rw [materialFromTag_eq]
  congr 1
  funext n
  rw [find_cacheMaterials]
  simp [SMap.find]

/-- The material an element describes by itself in YAML. -/
def YMaterial.own (m : YMaterial K) : Option (Material K) :=
  match m.color, m.texture with
  | some (some [r, g, b, a]), _ => some ⟨.COLOR, .color r g b a⟩
  | some _, _ => none
  | none, some (some f) => if f = "" then none else some ⟨.TEXTURE, .texture f⟩
  | none, _ => none

/-- The element has a name, and its color, if any, has a list of numbers. -/
def YMaterial.Readable (m : YMaterial K) : Prop := m.name.getD "" ≠ "" → m.color ≠ some none

omit [Scalar K] in
private theorem yamlMaterial_eq {cache : SMap (Material K)} {m : YMaterial K} {out : Material K} (hn : m.name.getD "" ≠ "") :
    (m.color ≠ some none → yamlMaterial cache m out = .ok (m.own.getD ((cache.find (m.name.getD "")).getD out))) ∧
    (m.color = some none → yamlMaterial cache m out = .error .runtimeError) := by
  obtain ⟨name, color, texture⟩ := m
  dsimp only at hn ⊢
  unfold yamlMaterial YMaterial.own
  dsimp only
  rw [if_neg hn]
  rcases color with _ | _ | l
  · refine ⟨fun _ => ?_, fun h => by simp at h⟩
    rcases texture with _ | _ | f
    · rfl
    · rfl
    · dsimp only [Option.getD_some]
      by_cases e : f = ""
      · rw [if_pos e, if_pos e]; rfl
      · rw [if_neg e, if_neg e]; rfl
  · exact ⟨fun h => absurd rfl h, fun _ => rfl⟩
  · refine ⟨fun _ => ?_, fun h => by simp at h⟩
    rcases l with _ | ⟨a, _ | ⟨b, _ | ⟨c, _ | ⟨d, _ | ⟨e, l⟩⟩⟩⟩⟩ <;> rfl

/-- The last valid definition of that name. -/
def YMaterial.last (materials : List (YMaterial K)) (n : String) : Option (Material K) :=
  (materials.filter fun d => d.name = some n).reverse.findSome? YMaterial.own

private theorem yamlCaches : ∀ (materials : List (YMaterial K)) (cache : SMap (Material K)),
    ((∀ m ∈ materials, m.Readable) → ∃ c, materials.foldlM yamlCache cache = .ok c ∧
      ∀ n, n ≠ "" → (c.find n).getD Material.none = (YMaterial.last materials n).getD ((cache.find n).getD Material.none)) ∧
    ((∃ m ∈ materials, ¬ m.Readable) → materials.foldlM yamlCache cache = .error .runtimeError)
  | [], cache => ⟨fun _ => ⟨cache, rfl, fun _ _ => rfl⟩, fun ⟨_, h, _⟩ => absurd h List.not_mem_nil⟩
  | m :: ms, cache => by
    rw [List.foldlM_cons]
    by_cases hr : m.Readable
    · obtain ⟨c1, hc1, hf⟩ : ∃ c1, yamlCache cache m = .ok c1 ∧ ∀ n, n ≠ "" →
          (c1.find n).getD Material.none = ((if m.name = some n then m.own else none).getD ((cache.find n).getD Material.none)) := by
        unfold yamlCache
        dsimp only
        by_cases hn : m.name.getD "" = ""
        · refine ⟨cache, by rw [if_pos hn], fun n hn' => ?_⟩
          rw [if_neg (by intro e; rw [e] at hn; exact hn' hn)]; rfl
        · rw [if_neg hn, (yamlMaterial_eq hn).1 (hr hn), Res.bind_ok]
          refine ⟨_, rfl, fun n hn' => ?_⟩
          have hname : m.name = some (m.name.getD "") := by
            cases h : m.name with
            | none => rw [h] at hn; exact absurd rfl hn
            | some x => rfl
          rw [SMap.find_set, SMap.find_set, if_pos rfl]
          by_cases e : n = m.name.getD ""
          · subst e
            rw [if_pos rfl, if_pos hname]
            rfl
          · rw [if_neg e, if_neg (by intro e'; rw [e'] at e; exact e rfl)]; rfl
      rw [hc1, Res.bind_ok]
      obtain ⟨h1, h2⟩ := yamlCaches ms c1
      refine ⟨fun h => ?_, fun ⟨d, hd, hd'⟩ => h2 ?_⟩
      · obtain ⟨c, hc, hcf⟩ := h1 fun d hd => h d (List.mem_cons_of_mem _ hd)
        refine ⟨c, hc, fun n hn => ?_⟩
        rw [hcf n hn, hf n hn]
        unfold YMaterial.last
        by_cases e : m.name = some n
        · rw [if_pos e, List.filter_cons_of_pos (by simpa using e), List.reverse_cons, List.findSome?_append, List.findSome?_cons]
          cases (List.filter (fun d => decide (d.name = some n)) ms).reverse.findSome? YMaterial.own with
          | some x => rfl
          | none => cases m.own <;> rfl
        · rw [if_neg e, List.filter_cons_of_neg (by simpa using e)]; rfl
      · rcases List.mem_cons.1 hd with rfl | hd
        · exact absurd hr hd'
        · exact ⟨d, hd, hd'⟩
    · have he : yamlCache cache m = .error .runtimeError := by
        unfold YMaterial.Readable at hr
        push Not at hr
        unfold yamlCache
        dsimp only
        rw [if_neg hr.1, (yamlMaterial_eq hr.1).2 hr.2]; rfl
      rw [he]
      exact ⟨fun h => absurd (h m (List.mem_cons_self ..)) hr, fun _ => rfl⟩

/-- **C60**, materials in YAML: an element that names a material gets the definition it gives itself if that is valid, otherwise the last valid
definition of that name in the list of the robot, otherwise none. -/
theorem C60_yaml_material (materials : List (YMaterial K)) (h : ∀ d ∈ materials, d.Readable) (m : YMaterial K) (hm : m.Readable) :
    ∃ cache, materials.foldlM yamlCache [] = .ok cache ∧
      yamlMaterial cache m Material.none =
        .ok (if m.name.getD "" = "" then Material.none else (m.own.or (YMaterial.last materials (m.name.getD ""))).getD Material.none) := by
  obtain ⟨c, hc, hf⟩ := (yamlCaches materials []).1 h
  refine ⟨c, hc, ?_⟩
  by_cases hn : m.name.getD "" = ""
  · rw [if_pos hn]
    unfold yamlMaterial
    dsimp only
    rw [if_pos hn]
  · rw [if_neg hn, (yamlMaterial_eq hn).1 (hm hn), hf _ hn]
    cases m.own <;> rfl

/-- The element can be read in URDF: an origin has three angles, a mesh has a file name, and a scale is one number or three. An element without a
geometry is ignored. -/
def XVisual.Readable (d : XVisual K) : Prop :=
  ∀ g, d.geometry = some g →
    (∀ o, d.origin = some o → ∀ l, o.rpy = some l → l.length = 3) ∧
    ∀ m, g.mesh = some m → m.filename ≠ none ∧ ∀ l, m.scale = some l → l.length = 1 ∨ l.length = 3

private theorem urdfRPYList_ok (l : List K) : (∃ R, urdfRPYList l = .ok R) ↔ l.length = 3 := by
  rcases l with _ | ⟨a, _ | ⟨b, _ | ⟨c, _ | ⟨d, l⟩⟩⟩⟩ <;> simp [urdfRPYList]

private theorem urdfOrigin_ok (o : Option (XOrigin K)) :
    (∃ X, urdfOrigin o = .ok X) ↔ ∀ x, o = some x → ∀ l, x.rpy = some l → l.length = 3 := by
  cases o with
  | none => simp [urdfOrigin]
  | some o =>
    unfold urdfOrigin
    dsimp only
    have : (∃ X, (urdfRPYList (o.rpy.getD [0, 0, 0]) >>= fun R => pure (f := Res) (⟨R, attrToVector o.xyz 0⟩ : PTransform K)) = .ok X) ↔
        ∃ R, urdfRPYList (o.rpy.getD [0, 0, 0]) = .ok R := by
      cases urdfRPYList (o.rpy.getD [0, 0, 0]) with
      | error e => simp [bind, Except.bind]
      | ok R => simp [bind, Except.bind, pure, Except.pure]
    rw [this, urdfRPYList_ok]
    cases h : o.rpy <;> simp [h]

omit [Scalar K] in
private theorem scaleOf_ok (l : List K) : (∃ v, scaleOf l = .ok v) ↔ l.length = 1 ∨ l.length = 3 := by
  rcases l with _ | ⟨a, _ | ⟨b, _ | ⟨c, _ | ⟨d, l⟩⟩⟩⟩ <;> simp [scaleOf]

private theorem urdfGeometry_ok (g : XGeometry K) :
    (∃ x, urdfGeometry g = .ok x) ↔ ∀ m, g.mesh = some m → m.filename ≠ none ∧ ∀ l, m.scale = some l → l.length = 1 ∨ l.length = 3 := by
  obtain ⟨mesh, box, cyl, sph, sup⟩ := g
  unfold urdfGeometry
  cases mesh with
  | some m =>
    obtain ⟨f, s⟩ := m
    simp only [Option.some.injEq, forall_eq']
    unfold geometryFromMesh
    cases f with
    | none => simp [bind, Except.bind]
    | some f =>
      have := scaleOf_ok (s.getD [1])
      cases hs : scaleOf (s.getD [1]) with
      | error e =>
        rw [hs] at this
        cases s <;> simp_all [bind, Except.bind, scaleOf]
      | ok v =>
        rw [hs] at this
        cases s <;> simp_all [bind, Except.bind, pure, Except.pure]
  | none =>
    cases box with
    | some b => simp
    | none => cases cyl with
      | some c => simp
      | none => cases sph with
        | some c => simp
        | none => cases sup <;> simp

private theorem visualFromTag_ok (cache : SMap (Material K)) (d : XVisual K) : (∃ o, visualFromTag cache d = .ok o) ↔ d.Readable := by
  unfold visualFromTag XVisual.Readable
  cases d.geometry with
  | none => simp
  | some g =>
    simp only [Option.some.injEq, forall_eq']
    rw [← urdfOrigin_ok, ← urdfGeometry_ok]
    cases urdfOrigin d.origin with
    | error e => simp [bind, Except.bind]
    | ok X => cases urdfGeometry g with
      | error e => simp [bind, Except.bind]
      | ok x => simp [bind, Except.bind, pure, Except.pure]

private theorem holds_get {α : Type} {o : Option (List α)} {L : List α} (h : o = if L = [] then none else some L) :
    o.getD [] = L ∧ o ≠ some [] := by
  subst h
  by_cases e : L = []
  · rw [if_pos e, e]; simp
  · rw [if_neg e]; simpa using e

/-- The link must be read in URDF. -/
def XVLink.Kept (params : ParserParams) (l : XVLink K) : Prop :=
  (params.removeVirtual = true → l.link.inertial ≠ none) ∧ (params.removeFiltered = true → l.link.name ∉ params.filtered)

omit [Scalar K] in
private theorem keepXVLink_iff (params : ParserParams) (l : XVLink K) : keepXVLink params l = true ↔ l.Kept params := by
  unfold keepXVLink XVLink.Kept
  cases l.link.inertial <;> cases params.removeVirtual <;> cases params.removeFiltered <;>
    by_cases h : l.link.name ∈ params.filtered <;> simp [h]

/-- **C60**, URDF, success: the visual and collision elements are read without a failure exactly when those of the links that are kept can be
read. -/
theorem C60_urdf_total (params : ParserParams) (materials : List (XMaterial K)) (links : List (XVLink K)) :
    (∃ r, urdfVisuals params materials links = .ok r) ↔
      ∀ l ∈ links, l.Kept params → ∀ d ∈ l.visuals ++ l.collisions, d.Readable := by
  rw [urdfVisuals_eq]
  constructor
  · rintro ⟨r, hr⟩ l hl hk d hd
    refine (visualFromTag_ok _ d).1 (gather_all hr ⟨l.link.name, l.visuals, l.collisions⟩ ?_ d hd)
    exact List.mem_map.2 ⟨l, List.mem_filter.2 ⟨hl, (keepXVLink_iff params l).2 hk⟩, rfl⟩
  · intro h
    obtain ⟨s, hs, _⟩ := gather_ok (f := visualFromTag (materials.foldl cacheMaterial [])) (items := xItems params links) (s := ([], []))
      VMap.holds_nil VMap.holds_nil (by
        intro i hi d hd
        obtain ⟨l, hl, rfl⟩ := List.mem_map.1 hi
        obtain ⟨hl, hk⟩ := List.mem_filter.1 hl
        exact (visualFromTag_ok _ d).2 (h l hl ((keepXVLink_iff params l).1 hk) d hd))
    exact ⟨s, hs⟩

open Classical in
/-- **C60**, URDF: the visuals of a name are those of the elements with a geometry of the links of that name that are kept, in the order of the
document, and the same holds of the collisions; a name without any has no entry. -/
theorem C60_urdf {params : ParserParams} {materials : List (XMaterial K)} {links : List (XVLink K)} {visual collision : VMap K}
    (h : urdfVisuals params materials links = .ok (visual, collision)) (n : String) :
    let read (part : XVLink K → List (XVisual K)) : List (Visual K) :=
      ((links.filter fun l => l.link.name = n ∧ l.Kept params).flatMap part).filterMap fun d =>
        (visualFromTag (materials.foldl cacheMaterial []) d).val?
    (SMap.find visual n).getD [] = read XVLink.visuals ∧ (SMap.find collision n).getD [] = read XVLink.collisions ∧
    SMap.find visual n ≠ some [] ∧ SMap.find collision n ≠ some [] := by
  rw [urdfVisuals_eq] at h
  obtain ⟨s, hs, h1, h2⟩ := gather_ok (f := visualFromTag (materials.foldl cacheMaterial [])) (items := xItems params links) (s := ([], []))
    VMap.holds_nil VMap.holds_nil fun i hi d hd => gather_all h i hi d hd
  rw [h] at hs
  cases hs
  have hof : ∀ (part : XVLink K → List (XVisual K)) (part' : VItem (XVisual K) → List (XVisual K)),
      (∀ l : XVLink K, part' ⟨l.link.name, l.visuals, l.collisions⟩ = part l) →
      VItem.of part' (xItems params links) n = (links.filter fun l => l.link.name = n ∧ l.Kept params).flatMap part := by
    intro part part' hp
    unfold VItem.of xItems
    rw [List.filter_map, List.flatMap_map, List.filter_filter]
    congr 1
    · funext l; exact hp l
    · apply List.filter_congr
      intro l _
      have := keepXVLink_iff params l
      by_cases hk : l.Kept params
      · simp [Function.comp, hk, this.2 hk]
      · have : keepXVLink params l = false := by simpa using fun h => hk (this.1 h)
        simp [hk, this]
  have h1' := h1 n
  have h2' := h2 n
  beta_reduce at h1' h2'
  rw [List.nil_append, hof XVLink.visuals _ fun _ => rfl] at h1'
  rw [List.nil_append, hof XVLink.collisions _ fun _ => rfl] at h2'
  exact ⟨(holds_get h1').1, (holds_get h2').1, (holds_get h1').2, (holds_get h2').2⟩

/-- What an entry of a geometry needs in YAML. -/
def YGeometry.Readable (g : YGeometry K) : Prop :=
  match g with
  | .mesh f s => f ≠ none ∧ ∀ l, s = some l → l.length = 1 ∨ l.length = 3
  | .box s => ∃ l, s = some l ∧ 3 ≤ l.length
  | .cylinder r l => r ≠ none ∧ l ≠ none
  | .sphere r => r ≠ none
  | .superellipsoid s e1 e2 => (∃ l, s = some l ∧ 3 ≤ l.length) ∧ e1 ≠ none ∧ e2 ≠ none
  | .other => False

/-- The element can be read in YAML. Contrary to URDF its origin and its material have to be readable even if it has no geometry. -/
structure YVisual.Readable (d : YVisual K) : Prop where
  frame : ∀ f, d.frame = some f → (∀ l, f.xyz = some l → l.length = 3) ∧ ∀ l, f.rpy = some l → l.length = 3
  material : ∀ m, d.material = some m → m.Readable
  geometry : ∀ g, d.geometry = some g → ∀ e ∈ g, e.Readable

private theorem yamlVec3_ok (l : List K) : (∃ R, yamlVec3 l = .ok R) ↔ l.length = 3 := by
  rcases l with _ | ⟨a, _ | ⟨b, _ | ⟨c, _ | ⟨d, l⟩⟩⟩⟩ <;> simp [yamlVec3]

private theorem yamlFrame_ok (env : ParserEnv K) (degrees : Bool) (f : Option (YFrame K)) : (∃ p, yamlFrame env degrees f = .ok p) ↔
    ∀ x, f = some x → (∀ l, x.xyz = some l → l.length = 3) ∧ ∀ l, x.rpy = some l → l.length = 3 := by
  cases f with
  | none => simp [yamlFrame]
  | some f =>
    obtain ⟨xyz, rpy, deg⟩ := f
    simp only [Option.some.injEq, forall_eq']
    unfold yamlFrame
    cases xyz with
    | none =>
      cases rpy with
      | none => simp [bind, Except.bind, pure, Except.pure]
      | some l =>
        have := yamlVec3_ok l
        cases h : yamlVec3 l <;> simp_all [bind, Except.bind, pure, Except.pure]
    | some k =>
      have hk := yamlVec3_ok k
      cases rpy with
      | none =>
        cases h : yamlVec3 k <;> simp_all [bind, Except.bind, pure, Except.pure]
      | some l =>
        have := yamlVec3_ok l
        cases h : yamlVec3 k <;> cases h' : yamlVec3 l <;> simp_all [bind, Except.bind, pure, Except.pure]

omit [Scalar K] in
private theorem vecOfData_ok (l : List K) : (∃ R, vecOfData l = .ok R) ↔ 3 ≤ l.length := by
  rcases l with _ | ⟨a, _ | ⟨b, _ | ⟨c, l⟩⟩⟩ <;> simp [vecOfData, rd, bind, Except.bind, pure, Except.pure]

private theorem yamlGeometryStep_ok (s : Geometry K) (g : YGeometry K) : (∃ x, yamlGeometryStep s g = .ok x) ↔ g.Readable := by
  cases g with
  | mesh f sc =>
    unfold yamlGeometryStep YGeometry.Readable
    cases f with
    | none => simp
    | some f =>
      have := scaleOf_ok (sc.getD [1])
      dsimp only
      cases hs : scaleOf (sc.getD [1]) with
      | error e => rw [hs] at this; cases sc <;> simp_all [bind, Except.bind]
      | ok v => rw [hs] at this; cases sc <;> simp_all [bind, Except.bind, pure, Except.pure]
  | box sz =>
    unfold yamlGeometryStep YGeometry.Readable
    cases sz with
    | none => simp
    | some l =>
      have := vecOfData_ok l
      dsimp only
      cases hs : vecOfData l <;> rw [hs] at this <;> simp_all [bind, Except.bind, pure, Except.pure]
  | cylinder r l => cases r <;> cases l <;> simp [yamlGeometryStep, YGeometry.Readable]
  | sphere r => cases r <;> simp [yamlGeometryStep, YGeometry.Readable]
  | superellipsoid sz e1 e2 =>
    unfold yamlGeometryStep YGeometry.Readable
    cases sz with
    | none => simp
    | some l =>
      have := vecOfData_ok l
      dsimp only
      cases hs : vecOfData l <;> rw [hs] at this <;> cases e1 <;> cases e2 <;> simp_all [bind, Except.bind, pure, Except.pure]
  | other => simp [yamlGeometryStep, YGeometry.Readable]

private theorem yamlGeometries_ok : ∀ (l : List (YGeometry K)) (s : Geometry K),
    (∃ x, l.foldlM yamlGeometryStep s = .ok x) ↔ ∀ g ∈ l, g.Readable
  | [], s => ⟨fun _ _ h => absurd h List.not_mem_nil, fun _ => ⟨s, rfl⟩⟩
  | g :: l, s => by
    rw [List.foldlM_cons, List.forall_mem_cons, ← yamlGeometryStep_ok s g]
    cases h : yamlGeometryStep s g with
    | error e => simp [bind, Except.bind]
    | ok x =>
      rw [Res.bind_ok, yamlGeometries_ok l x]
      simp

private theorem yamlGeometry_ok (g : Option (List (YGeometry K))) :
    (∃ x, yamlGeometry g = .ok x) ↔ ∀ l, g = some l → ∀ e ∈ l, e.Readable := by
  cases g with
  | none => simp [yamlGeometry]
  | some l =>
    simp only [Option.some.injEq, forall_eq']
    rw [← yamlGeometries_ok l Geometry.empty]
    unfold yamlGeometry
    dsimp only
    cases l.foldlM yamlGeometryStep Geometry.empty <;> simp [bind, Except.bind, pure, Except.pure]

private theorem yamlVisual_ok (env : ParserEnv K) (degrees : Bool) (cache : SMap (Material K)) (d : YVisual K) :
    (∃ o, yamlVisual env degrees cache d = .ok o) ↔ d.Readable := by
  have hm : (∃ m, (match d.material with | none => Except.ok Material.none | some m => yamlMaterial cache m Material.none : Res (Material K)) = .ok m) ↔
      ∀ m, d.material = some m → m.Readable := by
    cases d.material with
    | none => simp
    | some m =>
      simp only [Option.some.injEq, forall_eq']
      unfold YMaterial.Readable
      by_cases hn : m.name.getD "" = ""
      · simp [yamlMaterial, hn]
      · by_cases hc : m.color = some none
        · rw [(yamlMaterial_eq hn).2 hc]; simp [hn, hc]
        · rw [(yamlMaterial_eq hn).1 hc]; simp [hc]
  have hr : d.Readable ↔ (∃ p, yamlFrame env degrees d.frame = .ok p) ∧
      (∃ m, (match d.material with | none => Except.ok Material.none | some m => yamlMaterial cache m Material.none : Res (Material K)) = .ok m) ∧
      ∃ x, yamlGeometry d.geometry = .ok x := by
    rw [yamlFrame_ok, hm, yamlGeometry_ok]
    exact ⟨fun h => ⟨h.1, h.2, h.3⟩, fun h => ⟨h.1, h.2.1, h.2.2⟩⟩
  rw [hr]
  unfold yamlVisual
  cases yamlFrame env degrees d.frame with
  | error e => simp [bind, Except.bind]
  | ok p =>
    rw [Res.bind_ok]
    cases hmm : d.material with
    | none =>
      dsimp only
      cases yamlGeometry d.geometry <;> simp [bind, Except.bind, pure, Except.pure]
    | some m =>
      dsimp only
      cases yamlMaterial cache m Material.none with
      | error e => simp [bind, Except.bind]
      | ok m => cases yamlGeometry d.geometry <;> simp [bind, Except.bind, pure, Except.pure]

/-- **C60**, YAML, success: the visual and collision elements are read without a failure exactly when the materials of the robot and the elements
of the links that are kept can be read. -/
theorem C60_yaml_total (env : ParserEnv K) (params : ParserParams) (degrees : Bool) (materials : List (YMaterial K)) (links : List (YVLink K)) :
    (∃ r, yamlVisuals env params degrees materials links = .ok r) ↔
      (∀ m ∈ materials, m.Readable) ∧ ∀ i ∈ yItems params 1 links, ∀ d ∈ i.visuals ++ i.collisions, d.Readable := by
  rw [yamlVisuals_eq]
  by_cases hm : ∀ m ∈ materials, m.Readable
  · obtain ⟨c, hc, _⟩ := (yamlCaches materials []).1 hm
    rw [hc, Res.bind_ok]
    constructor
    · rintro ⟨r, hr⟩
      exact ⟨hm, fun i hi d hd => (yamlVisual_ok _ _ _ d).1 (gather_all hr i hi d hd)⟩
    · rintro ⟨_, h⟩
      obtain ⟨s, hs, _⟩ := gather_ok (f := yamlVisual env degrees c) (items := yItems params 1 links) (s := ([], []))
        VMap.holds_nil VMap.holds_nil fun i hi d hd => (yamlVisual_ok _ _ _ d).2 (h i hi d hd)
      exact ⟨s, hs⟩
  · have hm' := hm
    push Not at hm'
    rw [(yamlCaches materials []).2 hm']
    exact Iff.intro (fun ⟨_, h⟩ => nomatch h) (fun h => absurd h.1 hm)

/-- **C60**, YAML: the visuals of a name are those of the elements with a geometry of the links of that name that are kept (`yItems`: an unnamed
link is called `link` followed by its rank among the links that are kept), in the order of the document, and the same holds of the collisions; a
name without any has no entry. -/
theorem C60_yaml {env : ParserEnv K} {params : ParserParams} {degrees : Bool} {materials : List (YMaterial K)} {links : List (YVLink K)}
    {visual collision : VMap K} (h : yamlVisuals env params degrees materials links = .ok (visual, collision)) :
    ∃ cache, materials.foldlM yamlCache [] = .ok cache ∧ ∀ n,
      let read (part : VItem (YVisual K) → List (YVisual K)) : List (Visual K) :=
        (((yItems params 1 links).filter fun i => i.name = n).flatMap part).filterMap fun d => (yamlVisual env degrees cache d).val?
      (SMap.find visual n).getD [] = read VItem.visuals ∧ (SMap.find collision n).getD [] = read VItem.collisions ∧
      SMap.find visual n ≠ some [] ∧ SMap.find collision n ≠ some [] := by
  rw [yamlVisuals_eq] at h
  cases hc : materials.foldlM yamlCache [] with
  | error e => rw [hc] at h; exact nomatch h
  | ok cache =>
    rw [hc, Res.bind_ok] at h
    refine ⟨cache, rfl, fun n => ?_⟩
    obtain ⟨s, hs, h1, h2⟩ := gather_ok (f := yamlVisual env degrees cache) (items := yItems params 1 links) (s := ([], []))
      VMap.holds_nil VMap.holds_nil fun i hi d hd => gather_all h i hi d hd
    rw [h] at hs
    cases hs
    have h1' := h1 n
    have h2' := h2 n
    exact ⟨(holds_get h1').1, (holds_get h2').1, (holds_get h1').2, (holds_get h2').2⟩

/-- The tag and the data of a visual fit each other, so that a writer can write it. -/
def Visual.Consistent (v : Visual K) : Prop := (v.geometry.Consistent ∨ v.geometry.type = .UNKNOWN) ∧ v.material.Consistent

private theorem own_consistent {m : XMaterial K} {x : Material K} (h : m.own = some x) : x.Consistent := by
  obtain ⟨name, color, texture⟩ := m
  unfold XMaterial.own at h
  split at h <;> cases h
  · exact .inr (.inl ⟨rfl, _, _, _, _, rfl⟩)
  · exact .inr (.inl ⟨rfl, _, _, _, _, rfl⟩)
  · exact .inr (.inr ⟨rfl, _, rfl⟩)

omit [Scalar K] in
private theorem yown_consistent {m : YMaterial K} {x : Material K} (h : m.own = some x) : x.Consistent := by
  obtain ⟨color, texture⟩ := m
  unfold YMaterial.own at h
  split at h
  · cases h; exact .inr (.inl ⟨rfl, _, _, _, _, rfl⟩)
  · cases h
  · split at h <;> cases h
    exact .inr (.inr ⟨rfl, _, rfl⟩)
  · cases h

private theorem visualFromTag_consistent {materials : List (XMaterial K)} {d : XVisual K} {v : Visual K}
    (h : visualFromTag (materials.foldl cacheMaterial []) d = .ok (some v)) : v.Consistent := by
  unfold visualFromTag at h
  cases hg : d.geometry with
  | none => rw [hg] at h; cases h
  | some g =>
    rw [hg] at h
    dsimp only at h
    cases ho : urdfOrigin d.origin with
    | error e => rw [ho] at h; cases h
    | ok X =>
      rw [ho, Res.bind_ok] at h
      cases hx : urdfGeometry g with
      | error e => rw [hx] at h; cases h
      | ok x =>
        rw [hx, Res.bind_ok] at h
        cases h
        refine ⟨?_, ?_⟩
        · dsimp only
          obtain ⟨mesh, box, cyl, sph, sup⟩ := g
          unfold urdfGeometry at hx
          dsimp only at hx
          cases mesh with
          | some m =>
            dsimp only at hx
            unfold geometryFromMesh at hx
            obtain ⟨f, s⟩ := m
            cases f with
            | none => cases hx
            | some f =>
              dsimp only at hx
              rw [Res.bind_ok] at hx
              cases hs : scaleOf (s.getD [1]) with
              | error e => rw [hs] at hx; cases hx
              | ok w =>
                rw [hs] at hx
                cases hx
                exact .inl (.inr (.inr (.inr (.inl ⟨rfl, _, _, rfl⟩))))
          | none =>
            cases box with
            | some b => cases hx; exact .inl (.inl ⟨rfl, _, rfl⟩)
            | none => cases cyl with
              | some c => cases hx; exact .inl (.inr (.inl ⟨rfl, _, _, rfl⟩))
              | none => cases sph with
                | some c => cases hx; exact .inl (.inr (.inr (.inl ⟨rfl, _, rfl⟩)))
                | none => cases sup with
                  | some c => cases hx; exact .inl (.inr (.inr (.inr (.inr ⟨rfl, _, _, _, rfl⟩))))
                  | none => cases hx; exact .inr rfl
        · dsimp only
          cases hm : d.material with
          | none => exact .inl rfl
          | some m =>
            dsimp only
            rw [C60_urdf_material]
            cases hn : m.name with
            | none => exact .inl rfl
            | some n =>
              dsimp only [Option.bind_some]
              cases hf : (materials.filter fun d => decide (d.name = some n)).findSome? XMaterial.own with
              | some y =>
                obtain ⟨a, _, ha⟩ := List.exists_of_findSome?_eq_some hf
                exact own_consistent ha
              | none =>
                cases ho : m.own with
                | none => exact .inl rfl
                | some y => exact own_consistent ho

private theorem yamlGeometryStep_consistent {s : Geometry K} {g : YGeometry K} {x : Geometry K} (h : yamlGeometryStep s g = .ok x) :
    x.Consistent := by
  cases g with
  | mesh f sc =>
    unfold yamlGeometryStep at h
    cases f with
    | none => cases h
    | some f =>
      dsimp only at h
      cases hs : scaleOf (sc.getD [1]) with
      | error e => rw [hs] at h; cases h
      | ok v => rw [hs] at h; cases h; exact .inr (.inr (.inr (.inl ⟨rfl, _, _, rfl⟩)))
  | box sz =>
    unfold yamlGeometryStep at h
    cases sz with
    | none => cases h
    | some l =>
      dsimp only at h
      cases hs : vecOfData l with
      | error e => rw [hs] at h; cases h
      | ok v => rw [hs] at h; cases h; exact .inl ⟨rfl, _, rfl⟩
  | cylinder r l => cases r <;> cases l <;> cases h; exact .inr (.inl ⟨rfl, _, _, rfl⟩)
  | sphere r => cases r <;> cases h; exact .inr (.inr (.inl ⟨rfl, _, rfl⟩))
  | superellipsoid sz e1 e2 =>
    unfold yamlGeometryStep at h
    cases sz with
    | none => cases h
    | some l =>
      dsimp only at h
      cases hs : vecOfData l with
      | error e => rw [hs] at h; cases h
      | ok v => rw [hs] at h; cases e1 <;> cases e2 <;> cases h; exact .inr (.inr (.inr (.inr ⟨rfl, _, _, _, rfl⟩)))
  | other => cases h

private theorem yamlGeometries_consistent : ∀ (l : List (YGeometry K)) (s x : Geometry K), l.foldlM yamlGeometryStep s = .ok x →
    l ≠ [] → x.Consistent
  | [], _, _, _, h => absurd rfl h
  | g :: l, s, x, h, _ => by
    rw [List.foldlM_cons] at h
    cases hg : yamlGeometryStep s g with
    | error e => rw [hg] at h; cases h
    | ok y =>
      rw [hg, Res.bind_ok] at h
      cases l with
      | nil => cases h; exact yamlGeometryStep_consistent hg
      | cons k l => exact yamlGeometries_consistent (k :: l) y x h (by simp)

private theorem yamlVisual_consistent {env : ParserEnv K} {degrees : Bool} {materials : List (YMaterial K)} {cache : SMap (Material K)}
    (hc : materials.foldlM yamlCache [] = .ok cache) {d : YVisual K} {v : Visual K} (h : yamlVisual env degrees cache d = .ok (some v)) :
    v.Consistent := by
  have hread : ∀ m ∈ materials, m.Readable := by
    by_contra hm
    push Not at hm
    rw [(yamlCaches materials []).2 hm] at hc
    cases hc
  unfold yamlVisual at h
  cases hf : yamlFrame env degrees d.frame with
  | error e => rw [hf] at h; cases h
  | ok p =>
    rw [hf, Res.bind_ok] at h
    have key : ∀ m : Material K, m.Consistent → (yamlGeometry d.geometry >>= fun g => pure (f := Res) (g.map fun g =>
        (⟨d.name.getD "", ⟨yamlRPY p.2.x p.2.y p.2.z, p.1⟩, g, m⟩ : Visual K))) = .ok (some v) → v.Consistent := by
      intro m hm hv
      unfold yamlGeometry at hv
      cases hg : d.geometry with
      | none => rw [hg] at hv; cases hv
      | some l =>
        rw [hg] at hv
        dsimp only at hv
        cases hx : l.foldlM yamlGeometryStep Geometry.empty with
        | error e => rw [hx] at hv; cases hv
        | ok x =>
          rw [hx, Res.bind_ok] at hv
          cases l with
          | nil => cases hv
          | cons g l => cases hv; exact ⟨.inl (yamlGeometries_consistent _ _ _ hx (by simp)), hm⟩
    cases hm : d.material with
    | none =>
      rw [hm] at h
      exact key Material.none (.inl rfl) h
    | some m =>
      rw [hm] at h
      dsimp only at h
      cases hy : yamlMaterial cache m Material.none with
      | error e => rw [hy] at h; cases h
      | ok y =>
        rw [hy] at h
        refine key y ?_ h
        have hmr : m.Readable := by
          intro hn hcol
          rw [(yamlMaterial_eq hn).2 hcol] at hy
          cases hy
        obtain ⟨c', hc', he⟩ := C60_yaml_material materials hread m hmr
        rw [hc] at hc'
        cases hc'
        rw [hy] at he
        cases he
        split
        · exact .inl rfl
        · cases ho : m.own with
          | some x => exact yown_consistent ho
          | none =>
            rw [Option.none_or]
            cases hl : YMaterial.last materials (m.name.getD "") with
            | none => exact .inl rfl
            | some x =>
              obtain ⟨a, _, ha⟩ := List.exists_of_findSome?_eq_some hl
              exact yown_consistent ha

omit [Scalar K] in
private theorem write_consistent {β : Type} {w : Nat → Visual K → Res β} {m : VMap K} {n : String}
    (h : ∀ v ∈ (SMap.find m n).getD [], v.Consistent) (hw : ∀ i v, v.geometry.Consistent → v.material.Consistent → ∃ x, w i v = .ok x) :
    ∃ l, writeVisuals w m n = .ok l := by
  unfold writeVisuals
  cases hm : SMap.find m n with
  | none => exact ⟨_, rfl⟩
  | some l =>
    rw [hm] at h
    dsimp only
    obtain ⟨s, hs, _⟩ := foldlM_range_inv (fun (acc : List β) i => do
      let v ← rd l i
      if v.geometry.type = .UNKNOWN then return acc
      let x ← w i v
      return acc ++ [x]) (fun _ _ => True) l.length [] trivial (by
        intro i acc hi _
        have hv : l[i] ∈ l := List.getElem_mem hi
        obtain ⟨hg, hmat⟩ := h _ hv
        rw [rd_of_getElem? (List.getElem?_eq_getElem hi), Res.bind_ok]
        by_cases hu : l[i].geometry.type = .UNKNOWN
        · exact ⟨acc, by rw [if_pos hu]; rfl, trivial⟩
        · obtain ⟨x, hx⟩ := hw i l[i] (hg.resolve_right hu) hmat
          exact ⟨acc ++ [x], by rw [if_neg hu, hx]; rfl, trivial⟩)
    exact ⟨s, hs⟩

private theorem writeX_consistent (env : ParserEnv K) (n : String) (i : Nat) (v : Visual K) (hg : v.geometry.Consistent)
    (hm : v.material.Consistent) : ∃ x, writeXVisual env n i v = .ok x := by
  obtain ⟨name, X, ⟨gt, gd⟩, ⟨mt, md⟩⟩ := v
  unfold writeXVisual
  dsimp only
  have h1 : ∃ x, writeXMaterial env (materialName n i) (⟨mt, md⟩ : Material K) = .ok x := by
    rcases hm with h | ⟨h, r, g, b, a, h'⟩ | ⟨h, f, h'⟩ <;> dsimp only at h
    · subst h; exact ⟨_, rfl⟩
    · dsimp only at h'; subst h h'; exact ⟨_, rfl⟩
    · dsimp only at h'; subst h h'; exact ⟨_, rfl⟩
  have h2 : ∃ x, writeXGeometry env (⟨gt, gd⟩ : Geometry K) = .ok x := by
    rcases hg with ⟨h, _, h'⟩ | ⟨h, _, _, h'⟩ | ⟨h, _, h'⟩ | ⟨h, _, _, h'⟩ | ⟨h, _, _, _, h'⟩ <;> dsimp only at h h' <;> subst h h' <;>
      exact ⟨_, rfl⟩
  obtain ⟨x, hx⟩ := h1
  obtain ⟨y, hy⟩ := h2
  rw [hx, Res.bind_ok, hy]
  exact ⟨_, rfl⟩

private theorem writeY_consistent (env : ParserEnv K) (n : String) (i : Nat) (v : Visual K) (hg : v.geometry.Consistent)
    (hm : v.material.Consistent) : ∃ x, writeYVisual env n i v = .ok x := by
  obtain ⟨name, X, ⟨gt, gd⟩, ⟨mt, md⟩⟩ := v
  unfold writeYVisual
  dsimp only
  have h1 : ∃ x, writeYMaterial (materialName n i) (⟨mt, md⟩ : Material K) = .ok x := by
    rcases hm with h | ⟨h, r, g, b, a, h'⟩ | ⟨h, f, h'⟩ <;> dsimp only at h
    · subst h; exact ⟨_, rfl⟩
    · dsimp only at h'; subst h h'; exact ⟨_, rfl⟩
    · dsimp only at h'; subst h h'; exact ⟨_, rfl⟩
  have h2 : ∃ x, writeYGeometry (⟨gt, gd⟩ : Geometry K) = .ok x := by
    rcases hg with ⟨h, _, h'⟩ | ⟨h, _, _, h'⟩ | ⟨h, _, h'⟩ | ⟨h, _, _, h'⟩ | ⟨h, _, _, _, h'⟩ <;> dsimp only at h h' <;> subst h h' <;>
      exact ⟨_, rfl⟩
  obtain ⟨x, hx⟩ := h1
  obtain ⟨y, hy⟩ := h2
  rw [hx, Res.bind_ok, hy]
  exact ⟨_, rfl⟩

/-- **C60**: whatever one of the readers has read, both writers can write, for any bodies. -/
theorem C60_writable (env env' : ParserEnv K) (params : ParserParams) (degrees : Bool) (visual collision : VMap K) (bodies : List (Body K))
    (h : (∃ (materials : List (XMaterial K)) (links : List (XVLink K)), urdfVisuals params materials links = .ok (visual, collision)) ∨
      ∃ (materials : List (YMaterial K)) (links : List (YVLink K)),
        yamlVisuals env params degrees materials links = .ok (visual, collision)) :
    (∃ links, writeXVLinks env' visual collision bodies = .ok links) ∧ ∃ links, writeYVLinks env' visual collision bodies = .ok links := by
  have hc : ∀ n, (∀ v ∈ (SMap.find visual n).getD [], v.Consistent) ∧ ∀ v ∈ (SMap.find collision n).getD [], v.Consistent := by
    intro n
    rcases h with ⟨materials, links, h⟩ | ⟨materials, links, h⟩
    · obtain ⟨h1, h2, _⟩ := C60_urdf h n
      rw [h1, h2]
      refine ⟨fun v hv => ?_, fun v hv => ?_⟩ <;>
      · obtain ⟨d, _, hd⟩ := List.mem_filterMap.1 hv
        cases hr : visualFromTag (materials.foldl cacheMaterial []) d with
        | error e => rw [hr] at hd; cases hd
        | ok o => rw [hr] at hd; cases hd; exact visualFromTag_consistent hr
    · obtain ⟨cache, hcache, h'⟩ := C60_yaml h
      obtain ⟨h1, h2, _⟩ := h' n
      rw [h1, h2]
      refine ⟨fun v hv => ?_, fun v hv => ?_⟩ <;>
      · obtain ⟨d, _, hd⟩ := List.mem_filterMap.1 hv
        cases hr : yamlVisual env degrees cache d with
        | error e => rw [hr] at hd; cases hd
        | ok o => rw [hr] at hd; cases hd; exact yamlVisual_consistent hcache hr
  constructor
  · obtain ⟨l, hl, _⟩ := mapM_ok (l := bodies) (f := writeXVLink env' visual collision) (P := fun _ _ => True) (by
      intro b _
      obtain ⟨v, hv⟩ := write_consistent (hc b.name).1 (writeX_consistent env' b.name)
      obtain ⟨c, hc⟩ := write_consistent (hc b.name).2 (writeX_consistent env' b.name)
      exact ⟨_, by unfold writeXVLink; rw [hv, Res.bind_ok, hc]; rfl, trivial⟩)
    exact ⟨l, hl⟩
  · obtain ⟨l, hl, _⟩ := mapM_ok (l := bodies) (f := writeYVLink env' visual collision) (P := fun _ _ => True) (by
      intro b _
      obtain ⟨v, hv⟩ := write_consistent (hc b.name).1 (writeY_consistent env' b.name)
      obtain ⟨c, hc⟩ := write_consistent (hc b.name).2 (writeY_consistent env' b.name)
      exact ⟨_, by unfold writeYVLink; rw [hv, Res.bind_ok, hc]; rfl, trivial⟩)
    exact ⟨l, hl⟩

/-- **C60** fails for a mesh without a file name in URDF: a null pointer is assigned to a string. -/
theorem C60_not_mesh : urdfVisuals (K := ℚ) {} []
    [⟨⟨"base", none⟩, [⟨none, none, some { mesh := some ⟨none, none⟩ }, none⟩], []⟩] = .error .ub := by decide +kernel

/-- **C60** fails for a scale of two numbers: in both formats an `assert` is reached. -/
theorem C60_not_scale : urdfVisuals (K := ℚ) {} []
      [⟨⟨"base", none⟩, [⟨none, none, some { mesh := some ⟨some "a.stl", some [1, 2]⟩ }, none⟩], []⟩] = .error .ub ∧
    yamlVisuals Sample.env {} false []
      [⟨⟨some "base", none⟩, [⟨none, none, some [.mesh (some "a.stl") (some [1, 2])], none⟩], []⟩] = .error .ub :=
  ⟨by decide +kernel, by decide +kernel⟩

/-- **C60** fails for a box of two numbers in YAML: the check of the size comes after the three numbers have been read and looks at the vector that
holds them. In URDF the same box is read with the default size. -/
theorem C60_not_box :
    yamlVisuals Sample.env {} false [] [⟨⟨some "base", none⟩, [⟨none, none, some [.box (some [1, 2])], none⟩], []⟩] = .error .ub ∧
    urdfVisuals (K := ℚ) {} [] [⟨⟨"base", none⟩, [⟨none, none, some { box := some (some [1, 2]) }, none⟩], []⟩] =
      .ok ([("base", [⟨"", 1, ⟨.BOX, .box 0⟩, Material.none⟩])], []) :=
  ⟨by decide +kernel, by decide +kernel⟩

/-- **C60**, the formats disagree: the same material is defined for the robot and again, with another color, in the element. In URDF the element gets
the color of the robot, in YAML its own. With two definitions for the robot URDF takes the first and YAML the last. -/
theorem C60_not_same_material :
    (urdfVisuals (K := ℚ) {} [⟨some "m", some (some [0, 0, 1, 1]), none⟩]
      [⟨⟨"base", none⟩, [⟨none, none, some { sphere := some (some 1) }, some ⟨some "m", some (some [1, 0, 0, 1]), none⟩⟩], []⟩] =
        .ok ([("base", [⟨"", 1, ⟨.SPHERE, .sphere 1⟩, ⟨.COLOR, .color 0 0 1 1⟩⟩])], [])) ∧
    (yamlVisuals Sample.env {} false [⟨some "m", some (some [0, 0, 1, 1]), none⟩]
      [⟨⟨some "base", none⟩, [⟨none, none, some [.sphere (some 1)], some ⟨some "m", some (some [1, 0, 0, 1]), none⟩⟩], []⟩] =
        .ok ([("base", [⟨"", 1, ⟨.SPHERE, .sphere 1⟩, ⟨.COLOR, .color 1 0 0 1⟩⟩])], [])) ∧
    (urdfVisuals (K := ℚ) {} [⟨some "m", some (some [0, 0, 1, 1]), none⟩, ⟨some "m", none, some (some "wood.png")⟩]
      [⟨⟨"base", none⟩, [⟨none, none, some { sphere := some (some 1) }, some ⟨some "m", none, none⟩⟩], []⟩] =
        .ok ([("base", [⟨"", 1, ⟨.SPHERE, .sphere 1⟩, ⟨.COLOR, .color 0 0 1 1⟩⟩])], [])) ∧
    (yamlVisuals Sample.env {} false [⟨some "m", some (some [0, 0, 1, 1]), none⟩, ⟨some "m", none, some (some "wood.png")⟩]
      [⟨⟨some "base", none⟩, [⟨none, none, some [.sphere (some 1)], some ⟨some "m", none, none⟩⟩], []⟩] =
        .ok ([("base", [⟨"", 1, ⟨.SPHERE, .sphere 1⟩, ⟨.TEXTURE, .texture "wood.png"⟩⟩])], [])) :=
  ⟨by decide +kernel, by decide +kernel, by decide +kernel, by decide +kernel⟩

/-! ### Examples -/

/-- Two visuals of a body, with another one of a kind the formats do not know between them. -/
def Sample.visual : VMap ℚ :=
  [("base", [⟨"v", ⟨1, ⟨1, 2, 3⟩⟩, ⟨.MESH, .mesh "base.stl" ⟨1, 1, 2⟩⟩, ⟨.COLOR, .color 1 0 0 1⟩⟩,
    ⟨"w", 1, Geometry.empty, Material.none⟩,
    ⟨"x", ⟨1, ⟨0, 0, 1⟩⟩, ⟨.SUPERELLIPSOID, .superellipsoid ⟨1, 2, 3⟩ (1/2) 2⟩, ⟨.TEXTURE, .texture "package://wood.png"⟩⟩])]

/-- The hypotheses of C59 hold for them, in both formats. -/
example : ∀ l, SMap.find Sample.visual "base" = some l → ∀ v ∈ l, v.known = true → v.Writable Sample.env ∧ v.WritableX Sample.env := by
  intro l hl v hv hk
  have hE : (1 : Mat3 ℚ).tr = 1 := by decide +kernel
  have : l = _ := (Option.some.inj hl).symm
  subst this
  simp only [Sample.visual, List.mem_cons, List.not_mem_nil, or_false] at hv
  rcases hv with rfl | rfl | rfl
  · refine ⟨⟨.inr (.inr (.inr (.inl ⟨rfl, _, _, rfl⟩))), .inr (.inl ⟨rfl, _, _, _, _, rfl⟩), ⟨?_, ?_, ?_⟩⟩,
      ⟨.inr (.inr (.inr (.inl ⟨rfl, _, _, rfl⟩))), .inr (.inl ⟨rfl, _, _, _, _, rfl⟩), ⟨?_, ?_, ?_, ?_⟩, ?_⟩⟩
    all_goals first | (unfold Vec3.Sharp; decide +kernel) | decide +kernel | (intro x _; rfl)
  · exact absurd hk (by decide)
  · refine ⟨⟨.inr (.inr (.inr (.inr ⟨rfl, _, _, _, rfl⟩))), .inr (.inr ⟨rfl, _, rfl⟩), ⟨?_, ?_, ?_⟩⟩,
      ⟨.inr (.inr (.inr (.inr ⟨rfl, _, _, _, rfl⟩))), .inr (.inr ⟨rfl, _, rfl⟩), ⟨?_, ?_, ?_, ?_⟩, ?_⟩⟩
    all_goals first | (unfold Vec3.Sharp; decide +kernel) | decide +kernel | (intro x _; rfl)

/-- What is read back of them: the unknown one is lost, the names are lost, the path without a scheme has one. -/
example : Sample.visual.stored ["base"] "base" =
    some [⟨"", ⟨1, ⟨1, 2, 3⟩⟩, ⟨.MESH, .mesh "file://base.stl" ⟨1, 1, 2⟩⟩, ⟨.COLOR, .color 1 0 0 1⟩⟩,
      ⟨"", ⟨1, ⟨0, 0, 1⟩⟩, ⟨.SUPERELLIPSOID, .superellipsoid ⟨1, 2, 3⟩ (1/2) 2⟩, ⟨.TEXTURE, .texture "package://wood.png"⟩⟩] := by
  decide +kernel

/-- Links with readable elements: a link that is not kept does not have to be readable. -/
example : ∀ l ∈ ([⟨⟨"base", none⟩, [⟨none, some ⟨some [1], some [0, 0, 0]⟩, some { mesh := some ⟨some "a.stl", some [2]⟩ }, none⟩,
      ⟨none, some ⟨none, some [1]⟩, none, none⟩], []⟩,
    ⟨⟨"tip", none⟩, [⟨none, none, some { mesh := some ⟨none, none⟩ }, none⟩], []⟩] : List (XVLink ℚ)),
    l.Kept { filtered := ["tip"] } → ∀ d ∈ l.visuals ++ l.collisions, d.Readable := by
  intro l hl hk d hd
  simp only [List.mem_cons, List.not_mem_nil, or_false] at hl
  rcases hl with rfl | rfl
  · simp only [List.append_nil, List.mem_cons, List.not_mem_nil, or_false] at hd
    rcases hd with rfl | rfl <;> simp [XVisual.Readable]
  · simp [XVLink.Kept] at hk

end RBDyn
