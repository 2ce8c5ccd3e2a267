import Verif.Model.Binding
import Verif.Lemmas.Sample
import Verif.Props.Visuals

/-! Properties C62 (comparisons), C63 (pickling) and C64 (sequence wrappers) of the python bindings. -/

namespace RBDyn
variable {K : Type}

/-! ### C62 -/

section
variable [Scalar K]

/-- What the tag of a geometry promises about its data. -/
def Geometry.Sound (g : Geometry K) : Prop := g.type = .UNKNOWN ∨ g.Consistent

/-- Two geometries describe the same shape: same kind and, unless there is no shape, same dimensions. -/
def Geometry.Same (a b : Geometry K) : Prop := a.type = b.type ∧ (a.type = .UNKNOWN ∨ a.data = b.data)

private theorem pyCmp_eq_iff {a b : GData K} (h : ∃ r, a.pyCmp .eq b = .ok r) : a.pyCmp .eq b = .ok (decide (a = b)) := by
  cases a <;> cases b <;> obtain ⟨r, h⟩ := h <;> simp [GData.pyCmp] at h ⊢ <;> grind

private theorem Geometry.Sound.pyData {g : Geometry K} (h : g.Sound) :
    g.pyData = .ok (if g.type = .UNKNOWN then none else some g.data) := by
  obtain ⟨t, d⟩ := g
  rcases h with h | h
  · cases h; cases d <;> rfl
  · rcases h with ⟨h, s, h2⟩ | ⟨h, r, l, h2⟩ | ⟨h, r, h2⟩ | ⟨h, f, s, h2⟩ | ⟨h, s, e1, e2, h2⟩ <;> cases h <;> cases h2 <;> rfl

/-- C62: `==` of two geometries answers (it raises nothing and reads nothing it should not), and says whether they are the same shape. -/
theorem C62_geometry_eq {a b : Geometry K} (ha : a.Sound) (hb : b.Sound) :
    ∃ r, a.pyCmp .eq b = .ok r ∧ (r = true ↔ a.Same b) := by
  unfold Geometry.pyCmp Geometry.Same
  by_cases ht : a.type = b.type
  · simp only [ht, if_true, true_and]
    rw [ha.pyData, hb.pyData, ht]
    by_cases hu : b.type = .UNKNOWN
    · exact ⟨true, by simp only [if_pos hu]; rfl, by simp [hu]⟩
    · have hab : ∃ r, a.data.pyCmp .eq b.data = .ok r := by
        rcases ha with ha | ha
        · exact absurd (ht ▸ ha) hu
        rcases hb with hb | hb
        · exact absurd hb hu
        obtain ⟨ta, da⟩ := a
        obtain ⟨tb, db⟩ := b
        dsimp only at ht
        subst ht
        rcases ha with ⟨h, s, h2⟩ | ⟨h, r, l, h2⟩ | ⟨h, r, h2⟩ | ⟨h, f, s, h2⟩ | ⟨h, s, e1, e2, h2⟩ <;> cases h <;> cases h2 <;>
        rcases hb with ⟨h', s', h2'⟩ | ⟨h', r', l', h2'⟩ | ⟨h', r', h2'⟩ | ⟨h', f', s', h2'⟩ | ⟨h', s', e1', e2', h2'⟩ <;> cases h' <;>
        cases h2' <;> exact ⟨_, rfl⟩
      refine ⟨decide (a.data = b.data), ?_, by simp [hu]⟩
      simp only [hu, if_false]
      exact pyCmp_eq_iff hab
  · exact ⟨false, by simp [ht], by simp [ht]⟩

/-- C62: `==` of two visual elements answers, and says whether the names, the origins and the shapes are the same. -/
theorem C62_visual_eq {a b : Visual K} (ha : a.geometry.Sound) (hb : b.geometry.Sound) :
    ∃ r, a.pyCmp .eq b = .ok r ∧ (r = true ↔ a.name = b.name ∧ a.origin = b.origin ∧ a.geometry.Same b.geometry) := by
  unfold Visual.pyCmp
  dsimp only
  by_cases h : a.name = b.name ∧ a.origin = b.origin
  · obtain ⟨r, h1, h2⟩ := C62_geometry_eq ha hb
    exact ⟨r, by rw [if_pos h, h1], by rw [h2]; simp [h.1, h.2]⟩
  · refine ⟨false, by rw [if_neg h], ?_⟩
    constructor
    · intro h'; cases h'
    · rintro ⟨h1, h2, -⟩; exact absurd ⟨h1, h2⟩ h

/-- C62: exactly when `!=` of two descriptions of the same kind of shape is the negation of `==`: always for boxes and spheres; for meshes, cylinders
and superellipsoids only if the two agree in all the fields or in none. -/
theorem C62_ne_iff (f f' : String) (s s' : Vec3 K) (r r' l l' e1 e1' e2 e2' : K) :
    (GData.pyCmp .ne (.box s) (.box s') = (GData.pyCmp .eq (.box s) (.box s')).map not) ∧
    (GData.pyCmp .ne (.sphere r) (.sphere r') = (GData.pyCmp .eq (.sphere r) (.sphere r')).map not) ∧
    (GData.pyCmp .ne (.mesh f s) (.mesh f' s') = (GData.pyCmp .eq (.mesh f s) (.mesh f' s')).map not ↔ (f = f' ↔ s = s')) ∧
    (GData.pyCmp .ne (.cylinder r l) (.cylinder r' l') = (GData.pyCmp .eq (.cylinder r l) (.cylinder r' l')).map not ↔
      (r = r' ↔ l = l')) ∧
    (GData.pyCmp .ne (.superellipsoid s e1 e2) (.superellipsoid s' e1' e2') =
        (GData.pyCmp .eq (.superellipsoid s e1 e2) (.superellipsoid s' e1' e2')).map not ↔
      (s = s' ↔ e1 = e1') ∧ (e1 = e1' ↔ e2 = e2')) := by
  refine ⟨?_, ?_, ?_, ?_, ?_⟩
  · simp [GData.pyCmp, Except.map]
  · simp [GData.pyCmp, Except.map]
  · by_cases h1 : f = f' <;> by_cases h2 : s = s' <;> simp [GData.pyCmp, Except.map, h1, h2]
  · by_cases h1 : r = r' <;> by_cases h2 : l = l' <;> simp [GData.pyCmp, Except.map, h1, h2]
  · by_cases h1 : s = s' <;> by_cases h2 : e1 = e1' <;> by_cases h3 : e2 = e2' <;> simp [GData.pyCmp, Except.map, h1, h2, h3]

/-- C62 fails for geometries: `a != b` is never true. If the kinds are the same it is false whatever the dimensions, otherwise it does not
return: comparing the data of different kinds raises `TypeError`, or reads the fields of `None`. -/
theorem C62_not_geometry_ne {a b : Geometry K} (ha : a.Sound) (hb : b.Sound) :
    (a.type = b.type → a.pyCmp .ne b = .ok false) ∧
    (a.type ≠ b.type → a.type ≠ .UNKNOWN → b.type ≠ .UNKNOWN → a.pyCmp .ne b = .error .typeError) ∧
    (a.type ≠ b.type → (a.type = .UNKNOWN ∨ b.type = .UNKNOWN) → a.pyCmp .ne b = .error .crash) := by
  refine ⟨fun h => by simp [Geometry.pyCmp, h], fun h h1 h2 => ?_, fun h h1 => ?_⟩
  · unfold Geometry.pyCmp
    simp only [ne_eq, h, not_false_eq_true, if_true]
    rw [ha.pyData, hb.pyData, if_neg h1, if_neg h2]
    rcases ha with ha | ha
    · exact absurd ha h1
    rcases hb with hb | hb
    · exact absurd hb h2
    obtain ⟨ta, da⟩ := a
    obtain ⟨tb, db⟩ := b
    dsimp only at h
    rcases ha with ⟨h, s, h2⟩ | ⟨h, r, l, h2⟩ | ⟨h, r, h2⟩ | ⟨h, f, s, h2⟩ | ⟨h, s, e1, e2, h2⟩ <;> cases h <;> cases h2 <;>
    rcases hb with ⟨h', s', h2'⟩ | ⟨h', r', l', h2'⟩ | ⟨h', r', h2'⟩ | ⟨h', f', s', h2'⟩ | ⟨h', s', e1', e2', h2'⟩ <;> cases h' <;>
    cases h2' <;> first | rfl | exact absurd rfl h
  · unfold Geometry.pyCmp
    simp only [ne_eq, h, not_false_eq_true, if_true]
    rw [ha.pyData, hb.pyData]
    rcases h1 with h1 | h1
    · have : b.type ≠ .UNKNOWN := fun e => h (h1.trans e.symm)
      rw [if_pos h1, if_neg this]
      rfl
    · have : a.type ≠ .UNKNOWN := fun e => h (e.trans h1.symm)
      rw [if_pos h1, if_neg this]
      rfl

/-- C62 fails for visual elements: `a != b` is never true. -/
theorem C62_not_visual_ne {a b : Visual K} (ha : a.geometry.Sound) (hb : b.geometry.Sound) : a.pyCmp .ne b ≠ .ok true := by
  unfold Visual.pyCmp
  dsimp only
  split
  · obtain ⟨h1, h2, h3⟩ := C62_not_geometry_ne ha hb
    by_cases ht : a.geometry.type = b.geometry.type
    · rw [h1 ht]; simp
    · by_cases hu : a.geometry.type = .UNKNOWN ∨ b.geometry.type = .UNKNOWN
      · rw [h3 ht hu]; simp
      · rw [h2 ht (fun e => hu (Or.inl e)) (fun e => hu (Or.inr e))]; simp
  · simp

end

/-- C62, the negation as a pair of elements: two visual elements with different boxes are neither equal nor different, and two that differ in
the material only are equal. -/
theorem C62_not_negation :
    let box (x : ℚ) : Geometry ℚ := ⟨.BOX, .box ⟨x, 1, 1⟩⟩
    let red : Material ℚ := ⟨.COLOR, .color 1 0 0 1⟩
    let blue : Material ℚ := ⟨.COLOR, .color 0 0 1 1⟩
    (Visual.pyCmp .eq ⟨"v", 1, box 1, red⟩ ⟨"v", 1, box 2, red⟩ = .ok false ∧
      Visual.pyCmp .ne ⟨"v", 1, box 1, red⟩ ⟨"v", 1, box 2, red⟩ = .ok false) ∧
    Visual.pyCmp .eq ⟨"v", 1, box 1, red⟩ ⟨"v", 1, box 1, blue⟩ = .ok true := by decide +kernel

/-- The hypotheses of the theorems of C62 can be met: a mesh, and no shape. -/
example : (⟨.MESH, .mesh "file" ⟨1, 1, 1⟩⟩ : Geometry ℚ).Sound ∧ (⟨.UNKNOWN, .box 0⟩ : Geometry ℚ).Sound :=
  ⟨Or.inr (Or.inr (Or.inr (Or.inr (Or.inl ⟨rfl, _, _, rfl⟩)))), Or.inl rfl⟩

/-! ### C63 -/

section
variable [Scalar K]

/-- The joint with the mimic information of a joint that mimics nothing. -/
def Joint.forget (j : Joint K) : Joint K := { j with isMimic := false, mimicName := "", mimicMultiplier := 1, mimicOffset := 0 }

/-- C63: a pickled body comes back. -/
theorem C63_body (b : Body K) : Body.unpickle b.pickle = b := rfl

private theorem dir_smul_smul (f : Bool) (a : Vec3 K) : (if f then 1 else -1 : K) • ((if f then 1 else -1 : K) • a) = a := by
  cases f <;> ext <;> simp

private theorem pickle_mk' (t : JointType) (a : Vec3 K) (f : Bool) (n : String) :
    ∃ s, (Joint.mk' t a f n).pickle = .ok s ∧ Joint.unpickle s = Joint.mk' t a f n := by
  cases t
  case Rev | Cylindrical | Prism =>
    refine ⟨_, rfl, ?_⟩
    show Joint.mk' _ ((if f then 1 else -1 : K) • ((if f then 1 else -1 : K) • a)) (Joint.isForward _) _ = _
    rw [dir_smul_smul, Joint.isForward_mk']
    rfl
  all_goals
    refine ⟨_, rfl, ?_⟩
    show Joint.mk' _ Vec3.unitZ (Joint.isForward _) _ = _
    rw [Joint.isForward_mk']
    rfl

/-- C63: every joint of the interface, in either direction, comes back with the same type, motion subspace, direction, sizes and name, and as a joint
that mimics nothing. -/
theorem C63_joint {j : Joint K} (hj : j.Built) : ∃ s, j.pickle = .ok s ∧ Joint.unpickle s = j.forget := by
  obtain ⟨t, a, f, n, rfl | ⟨mn, m, o, rfl⟩⟩ := hj.exists_mk
  · exact pickle_mk' t a f n
  · exact pickle_mk' t a f n

/-- C63: the joints that mimic nothing come back unchanged. -/
theorem C63_joint_plain {j : Joint K} (hj : j.Built) (hm : j.isMimic = false) : ∃ s, j.pickle = .ok s ∧ Joint.unpickle s = j := by
  obtain ⟨t, a, f, n, rfl | ⟨mn, m, o, rfl⟩⟩ := hj.exists_mk
  · exact pickle_mk' t a f n
  · cases hm

/-- C63: the joint that comes back moves as the pickled one, mimicking or not. -/
theorem C63_joint_motion {j : Joint K} (hj : j.Built) : ∃ s, j.pickle = .ok s ∧
    (∀ q, (Joint.unpickle s).pose q = j.pose q) ∧ (∀ a, (Joint.unpickle s).motion a = j.motion a) ∧
    (Joint.unpickle s).isForward = j.isForward ∧ (Joint.unpickle s).eqName j = true := by
  obtain ⟨s, h, h'⟩ := C63_joint hj
  refine ⟨s, h, ?_⟩
  rw [h']
  exact ⟨fun q => rfl, fun a => rfl, rfl, by simp [Joint.eqName, Joint.forget]⟩

/-- The constructor looks at the names of the bodies and at the names and the sizes of the joints only. -/
private theorem mk'_congr {b b' : List (Body K)} {j j' : List (Joint K)} (hb : b'.map (·.name) = b.map (·.name))
    (hj : j'.map (fun x => (x.name, x.params, x.dof)) = j.map (fun x => (x.name, x.params, x.dof)))
    (pred succ par : List Int) (X X' : List (PTransform K)) :
    MultiBody.mk' b' j' pred succ par X' =
      (MultiBody.mk' b j pred succ par X).map (fun mb => { mb with bodies := b', joints := j', Xt := X' }) := by
  have hlb : b'.length = b.length := by simpa using congrArg List.length hb
  have hlj : j'.length = j.length := by simpa using congrArg List.length hj
  have hrb : ∀ i : Nat, (b'[i]?).map (·.name) = (b[i]?).map (·.name) := fun i => by
    simpa using congrArg (·[i]?) hb
  have hrj : ∀ i : Nat, (j'[i]?).map (fun x => (x.name, x.params, x.dof)) = (j[i]?).map (fun x => (x.name, x.params, x.dof)) := fun i => by
    simpa using congrArg (·[i]?) hj
  unfold MultiBody.mk'
  rw [hlb, hlj]
  generalize hs : (⟨b, j, pred, succ, par, X, [], [], List.replicate j.length 0, List.replicate j.length 0, 0, 0⟩ : MultiBody K) = s
  have e : (⟨b', j', pred, succ, par, X', [], [], List.replicate j.length 0, List.replicate j.length 0, 0, 0⟩ : MultiBody K) =
      { s with bodies := b', joints := j', Xt := X' } := by rw [← hs]
  rw [e]
  have h1 : s.bodies = b := by rw [← hs]
  have h2 : s.joints = j := by rw [← hs]
  clear e hs
  generalize List.range b.length = l
  induction l generalizing s with
  | nil => rfl
  | cons i l ih =>
    rw [List.foldlM_cons, List.foldlM_cons]
    have step : MultiBody.ctorStep { s with bodies := b', joints := j', Xt := X' } i =
        (MultiBody.ctorStep s i).map (fun mb => { mb with bodies := b', joints := j', Xt := X' }) ∧
        ∀ s', MultiBody.ctorStep s i = .ok s' → s'.bodies = b ∧ s'.joints = j := by
      unfold MultiBody.ctorStep
      dsimp only
      rw [h1, h2]
      have hb := hrb i
      have hj := hrj i
      unfold rd
      cases e1 : b[i]? with
      | none =>
        rw [e1] at hb
        have : b'[i]? = none := by simpa using hb
        rw [this]
        exact ⟨rfl, fun s' h => by cases h⟩
      | some x =>
        rw [e1] at hb
        obtain ⟨x', e2, hx⟩ : ∃ x', b'[i]? = some x' ∧ x'.name = x.name := by simpa using hb
        rw [e2]
        cases e3 : j[i]? with
        | none =>
          rw [e3] at hj
          have : j'[i]? = none := by simpa using hj
          rw [this]
          exact ⟨rfl, fun s' h => by cases h⟩
        | some y =>
          rw [e3] at hj
          obtain ⟨y', e4, hy1, hy2, hy3⟩ : ∃ y', j'[i]? = some y' ∧ y'.name = y.name ∧ y'.params = y.params ∧ y'.dof = y.dof := by
            simpa using hj
          rw [e4]
          simp only [Res.bind_ok, hx, hy1, hy2, hy3]
          cases wr s.jointPosInParam i s.nrParams with
          | error _ => exact ⟨rfl, fun s' h => by cases h⟩
          | ok p =>
            cases wr s.jointPosInDof i s.nrDof with
            | error _ => exact ⟨rfl, fun s' h => by cases h⟩
            | ok d => exact ⟨rfl, fun s' h => by cases h; exact ⟨rfl, rfl⟩⟩
    rw [step.1]
    cases e : MultiBody.ctorStep s i with
    | error _ => rfl
    | ok s' =>
      obtain ⟨g1, g2⟩ := step.2 s' e
      exact ih s' g1 g2

private theorem mapM_pickle {l : List (Joint K)} (h : ∀ x ∈ l, x.Built) :
    ∃ s, l.mapM Joint.pickle = .ok s ∧ s.map Joint.unpickle = l.map Joint.forget := by
  induction l with
  | nil => exact ⟨[], rfl, rfl⟩
  | cons x l ih =>
    obtain ⟨s, e, e'⟩ := ih (fun y hy => h y (List.mem_cons_of_mem _ hy))
    obtain ⟨t, f, f'⟩ := C63_joint (h x List.mem_cons_self)
    refine ⟨t :: s, ?_, by simp [e', f']⟩
    rw [List.mapM_cons, f, Res.bind_ok, e]
    rfl

/-- C63: a robot made by the constructor, whose bodies may have been replaced by bodies of the same names (other inertias) and whose static transforms may
have been changed, comes back with every member the same, except that no joint mimics another. -/
theorem C63_multibody {mb : MultiBody K} (hm : mb.Made) {b : List (Body K)} (hb : b.map (·.name) = mb.bodies.map (·.name))
    (X : List (PTransform K)) : ∃ s, MultiBody.pickle { mb with bodies := b, Xt := X } = .ok s ∧
      MultiBody.unpickle s = .ok { mb with bodies := b, Xt := X, joints := mb.joints.map Joint.forget } := by
  obtain ⟨b0, j0, pred, succ, par, X0, hl, hB, e⟩ := hm
  obtain ⟨mb', e', hi⟩ := ctor_inv b0 j0 pred succ par X0 hl
  rw [e] at e'
  cases e'
  obtain rfl := hi.pred
  obtain rfl := hi.succ
  obtain rfl := hi.parent
  obtain ⟨s, e1, e2⟩ := mapM_pickle (l := mb.joints) (by rw [hi.joints]; exact hB)
  refine ⟨⟨b.map Body.pickle, s, mb.pred, mb.succ, mb.parent, X⟩, ?_, ?_⟩
  · unfold MultiBody.pickle
    dsimp only
    rw [e1]
    rfl
  · unfold MultiBody.unpickle
    dsimp only
    rw [e2, List.map_map, show (Body.unpickle ∘ Body.pickle : Body K → Body K) = id from rfl, List.map_id]
    rw [mk'_congr (b := b0) (j := j0) (X := X0) (by rw [hb, hi.bodies]) (by rw [hi.joints, List.map_map]; rfl), e]
    rfl

/-- C63: a robot none of whose joints mimics another comes back unchanged. -/
theorem C63_multibody_plain {mb : MultiBody K} (hm : mb.Made) (hj : ∀ j ∈ mb.joints, j.isMimic = false) :
    ∃ s, mb.pickle = .ok s ∧ MultiBody.unpickle s = .ok mb := by
  obtain ⟨s, e1, e2⟩ := C63_multibody hm (b := mb.bodies) rfl mb.Xt
  refine ⟨s, e1, e2.trans ?_⟩
  have : mb.joints.map Joint.forget = mb.joints := by
    obtain ⟨b0, j0, pred, succ, par, X0, hl, hB, e⟩ := hm
    obtain ⟨mb', e', hi⟩ := ctor_inv b0 j0 pred succ par X0 hl
    rw [e] at e'
    cases e'
    refine (List.map_congr_left (g := id) fun j hj' => ?_).trans (List.map_id _)
    obtain ⟨t, a, f, n, rfl | ⟨mn, m, o, rfl⟩⟩ := (hB j (hi.joints ▸ hj')).exists_mk
    · rfl
    · cases hj _ hj'
  rw [this]

end

/-- C63 fails for joints that mimic another: the joint that comes back compares equal to the pickled one, mimics nothing and has another zero
configuration. -/
theorem C63_not_mimic :
    let j : Joint ℚ := (Joint.mk' .Rev ⟨0, 0, 1⟩ false "finger").makeMimic "thumb" 2 1
    (j.pickle.toOption.map Joint.unpickle).map (fun u => (u.eqName j, u.isMimic, u.zeroParam)) = some (true, false, [0]) ∧
    j.isMimic = true ∧ j.zeroParam = [1] := by decide +kernel

/-- The hypothesis of C63 on the names is needed: `body(i, b)` does not update the index of the names, so that a robot with a renamed body answers
to the old name, and the pickled robot to the new one. -/
theorem C63_not_renamed :
    let mb := Sample.mb.setBody 1 ⟨0, "forearm"⟩
    ((mb.bind fun m => m.sBodyIndexByName "arm") = .ok 1 ∧ (mb.bind fun m => m.sBodyIndexByName "forearm") = .error .outOfRange) ∧
    let mb' := mb.bind fun m => m.pickle.bind MultiBody.unpickle
    (mb'.bind fun m => m.sBodyIndexByName "arm") = .error .outOfRange ∧ (mb'.bind fun m => m.sBodyIndexByName "forearm") = .ok 1 := by
  decide +kernel

/-- The hypotheses of the theorems of C63 can be met: the sample robot, with other inertias. -/
example : ∃ b : List (Body ℚ), b ≠ Sample.mb.bodies ∧ Sample.mb.Made ∧ b.map (·.name) = Sample.mb.bodies.map (·.name) ∧
    ∀ j ∈ Sample.mb.joints, j.isMimic = false :=
  ⟨Sample.mb.bodies.map fun b => ⟨0, b.name⟩, by decide +kernel, Sample.made, by decide +kernel, by decide +kernel⟩

/-! ### C64 -/

section
variable {α : Type}

/-- What python calls `v[idx]`: from the front, or from the back for a negative index. -/
def listIndex (v : List α) (idx : Int) : Option α :=
  if 0 ≤ idx then v[idx.toNat]? else if -v.length ≤ idx then v[(v.length + idx).toNat]? else none

private theorem pyAt_nat {v : List α} {k : Nat} (h : k < v.length) (hv : v.length < 2 ^ 64) : pyAt v k = .ok v[k] := by
  unfold pyAt toSize
  rw [if_pos (by omega)]
  show (match v[(k : Int).toNat]? with | some x => (Except.ok x : PyRes α) | none => .error .indexError) = _
  rw [Int.toNat_natCast, List.getElem?_eq_getElem h]

private theorem listIndex_nat (v : List α) (k : Nat) : listIndex v k = v[k]? := by
  unfold listIndex
  rw [if_pos (Int.natCast_nonneg k), Int.toNat_natCast]

private theorem listIndex_last {v : List α} {k : Nat} (h : v.length = k + 1) : listIndex v (-1) = v[k]? := by
  unfold listIndex
  rw [if_neg (show ¬(0 : Int) ≤ -1 by omega), if_pos (show -(v.length : Int) ≤ -1 by omega),
    show ((v.length : Int) + -1).toNat = k by omega]

private theorem listIndex_empty {v : List α} (h : v.length = 0) : listIndex v (-1) = none := by
  unfold listIndex
  rw [if_neg (show ¬(0 : Int) ≤ -1 by omega), if_neg (show ¬-(v.length : Int) ≤ -1 by omega)]

/-- C64, reading: an index from the front, or -1, gives the element a python list would give. -/
theorem C64_get (v : List α) (hv : v.length < 2 ^ 64) (idx : Int) (hi : -1 ≤ idx) :
    pyGetItem v idx = match listIndex v idx with | some x => .ok x | none => .error .indexError := by
  unfold pyGetItem
  dsimp only
  by_cases h1 : idx = -1
  · subst h1
    rw [if_pos rfl]
    unfold lastIndex
    by_cases h0 : v.length = 0
    · rw [if_pos h0, listIndex_empty h0, if_neg (show ¬(2 ^ 64 - 1 : Int) < v.length by omega)]
    · obtain ⟨k, hk⟩ : ∃ k : Nat, v.length = k + 1 := ⟨v.length - 1, by omega⟩
      rw [if_neg h0, show ((v.length : Int) - 1) = (k : Int) by omega, if_pos (show (k : Int) < v.length by omega), pyAt_nat (by omega) hv,
        listIndex_last hk, List.getElem?_eq_getElem (by omega)]
  · obtain ⟨k, rfl⟩ : ∃ k : Nat, idx = k := ⟨idx.toNat, by omega⟩
    rw [if_neg h1, listIndex_nat]
    by_cases hk : k < v.length
    · rw [if_pos (show (k : Int) < v.length by omega), pyAt_nat hk hv, List.getElem?_eq_getElem hk]
    · rw [if_neg (show ¬(k : Int) < v.length by omega), List.getElem?_eq_none (by omega)]

/-- C64, reading: the other negative indices raise an exception. A python list would answer for those down to minus its length. -/
theorem C64_get_negative (v : List α) (idx : Int) (hi : idx ≤ -2) : pyGetItem v idx = .error .overflowError := by
  unfold pyGetItem pyAt toSize
  dsimp only
  rw [if_neg (show ¬idx = -1 by omega), if_pos (show idx < v.length by omega), if_neg (show ¬(0 ≤ idx ∧ idx < 2 ^ 64) by omega)]
  rfl

/-- C64, reading of the sequences of robots and of configurations: as a python list from the front and for -1, an exception otherwise. -/
theorem C64_get_int (v : List α) (hv : v.length < 2 ^ 31) (idx : Int) :
    pyGetItemInt v idx =
      if ¬(-2 ^ 31 ≤ idx ∧ idx < 2 ^ 31) then .error .overflowError
      else if idx < -1 then .error .indexError
      else match listIndex v idx with | some x => .ok x | none => .error .indexError := by
  unfold pyGetItemInt
  by_cases hr : ¬(-2 ^ 31 ≤ idx ∧ idx < 2 ^ 31)
  · rw [if_pos hr, if_pos hr]
  rw [if_neg hr, if_neg hr]
  dsimp only
  by_cases h1 : idx = -1
  · subst h1
    rw [if_pos rfl, if_neg (show ¬(-1 : Int) < -1 by omega)]
    by_cases h0 : v.length = 0
    · rw [if_neg (show ¬(0 ≤ (v.length : Int) - 1 ∧ (v.length : Int) - 1 < v.length) by omega), listIndex_empty h0]
    · obtain ⟨k, hk⟩ : ∃ k : Nat, v.length = k + 1 := ⟨v.length - 1, by omega⟩
      rw [show ((v.length : Int) - 1) = (k : Int) by omega, if_pos (show 0 ≤ (k : Int) ∧ (k : Int) < v.length by omega),
        pyAt_nat (by omega) (by omega), listIndex_last hk, List.getElem?_eq_getElem (by omega)]
  · rw [if_neg h1]
    by_cases h2 : idx < -1
    · rw [if_pos h2, if_neg (show ¬(0 ≤ idx ∧ idx < v.length) by omega)]
    · obtain ⟨k, rfl⟩ : ∃ k : Nat, idx = k := ⟨idx.toNat, by omega⟩
      rw [if_neg h2, listIndex_nat]
      by_cases hk : k < v.length
      · rw [if_pos (show 0 ≤ (k : Int) ∧ (k : Int) < v.length by omega), pyAt_nat hk (by omega), List.getElem?_eq_getElem hk]
      · rw [if_neg (show ¬(0 ≤ (k : Int) ∧ (k : Int) < v.length) by omega), List.getElem?_eq_none (by omega)]

/-- C64, writing: exactly what an assignment does. Inside the vector the element is replaced, negative indices (also -1) raise an exception, and
any other index below `2 ^ 32` writes outside the vector. -/
theorem C64_set_partial (v : List α) (x : α) (idx : Int) :
    pySetItem v idx x =
      if idx < 0 ∨ 2 ^ 32 ≤ idx then .error .overflowError
      else if idx < v.length then .ok (v.set idx.toNat x) else .error .crash := by
  unfold pySetItem setItem toUnsigned
  by_cases h : idx < 0 ∨ 2 ^ 32 ≤ idx
  · rw [if_pos h, if_neg (by omega)]; rfl
  · rw [if_neg h, if_pos (by omega)]
    show (if idx.toNat < v.length then _ else _) = _
    by_cases hl : idx < v.length
    · rw [if_pos hl, if_pos (by omega)]
    · rw [if_neg hl, if_neg (by omega)]

/-- C64, writing in the sequences of configurations: never outside the vector. -/
theorem C64_set_int (v : List α) (x : α) (idx : Int) :
    pySetItemInt v idx x ≠ .error .crash ∧
      (0 ≤ idx → idx < v.length → v.length < 2 ^ 31 → pySetItemInt v idx x = .ok (v.set idx.toNat x)) := by
  constructor
  · unfold pySetItemInt
    split
    · simp
    · split
      · have := C64_set_partial v x idx
        unfold pySetItem at this
        rw [this, if_neg (by omega), if_pos (by omega)]
        simp
      · simp
  · intro h0 h1 h2
    unfold pySetItemInt
    have := C64_set_partial v x idx
    unfold pySetItem at this
    rw [if_neg (by omega), if_pos ⟨h0, h1⟩, this, if_neg (by omega), if_pos h1]

private theorem indices_pos (a b s : Nat) (hs : 0 < s) (n : Nat) :
    ∃ l, Slice.indices ⟨some a, some b, some s⟩ n = .ok l ∧ ∀ k : Nat, l[k]? = if a + k * s < b then some ((a + k * s : Nat) : Int) else none := by
  unfold Slice.indices pyRange
  dsimp only [Option.getD_some]
  rw [if_neg (by omega)]
  refine ⟨_, rfl, fun k => ?_⟩
  rw [if_pos (by omega)]
  have key : k < (((b : Int) - a + s - 1) / s).toNat ↔ a + k * s < b := by
    rw [Int.lt_toNat, Int.lt_iff_add_one_le, Int.le_ediv_iff_mul_le (by omega)]
    have : ((k : Int) + 1) * s = k * s + s := by ring
    rw [this]
    push_cast
    constructor
    · intro h
      zify
      omega
    · intro h
      zify at h
      omega
  by_cases h : a + k * s < b
  · rw [if_pos h, List.getElem?_map, List.getElem?_range (key.2 h)]
    simp
  · rw [if_neg h, List.getElem?_eq_none]
    simp only [List.length_map, List.length_range]
    exact Nat.le_of_not_lt fun h' => h (key.1 h')

/-- C64, reading a slice `v[a:b:s]` within the vector: the elements `a`, `a + s`, ... before `b`, as of a python list. -/
theorem C64_get_slice (v : List α) (hv : v.length < 2 ^ 64) (a b s : Nat) (hs : 0 < s) (hb : b ≤ v.length) :
    ∃ w, pyGetSlice v ⟨some a, some b, some s⟩ = .ok w ∧ ∀ k : Nat, w[k]? = if a + k * s < b then v[a + k * s]? else none := by
  obtain ⟨l, e, hl⟩ := indices_pos a b s hs v.length
  have hm : ∀ i ∈ l, ∃ k : Nat, i = k ∧ k < v.length := by
    intro i hi
    obtain ⟨m, hm⟩ := List.mem_iff_getElem?.1 hi
    rw [hl] at hm
    split at hm
    · exact ⟨_, (Option.some.inj hm).symm, by omega⟩
    · cases hm
  have hmap : ∀ l : List Int, (∀ i ∈ l, ∃ k : Nat, i = k ∧ k < v.length) → ∃ w, l.mapM (pyAt v) = .ok w ∧
      ∀ k : Nat, w[k]? = (l[k]?).bind fun i => v[i.toNat]? := by
    intro l
    induction l with
    | nil => exact fun _ => ⟨[], rfl, fun k => rfl⟩
    | cons i l ih =>
      intro h
      obtain ⟨w, e, hw⟩ := ih fun j hj => h j (List.mem_cons_of_mem _ hj)
      obtain ⟨k, rfl, hk⟩ := h i List.mem_cons_self
      refine ⟨v[k] :: w, ?_, ?_⟩
      · rw [List.mapM_cons, pyAt_nat hk hv, e]
        rfl
      · intro m
        cases m with
        | zero => simp [List.getElem?_eq_getElem hk]
        | succ m => simpa using hw m
  obtain ⟨w, e', hw⟩ := hmap l hm
  refine ⟨w, ?_, fun k => ?_⟩
  · unfold pyGetSlice
    rw [e]
    exact e'
  · rw [hw, hl]
    split
    · rw [Option.bind_some, Int.toNat_natCast]
    · rfl

/-- C64, assigning to a slice `v[a:b:s]` within the vector: the elements `a`, `a + s`, ... before `b` get the values in order, provided there are as many, and no
other element changes. -/
theorem C64_set_slice (v values : List α) (hv : v.length < 2 ^ 32) (a b s : Nat) (hs : 0 < s) (hb : b ≤ v.length)
    (hn : ∀ k : Nat, a + k * s < b → k < values.length) :
    ∃ w, pySetSlice v ⟨some a, some b, some s⟩ values = .ok w ∧ w.length = v.length ∧
      (∀ k : Nat, a + k * s < b → w[a + k * s]? = values[k]?) ∧
      (∀ i : Nat, (∀ k : Nat, i = a + k * s → b ≤ i) → w[i]? = v[i]?) := by
  obtain ⟨l, e, hl⟩ := indices_pos a b s hs v.length
  have loop : ∀ m, m ≤ l.length → ∃ w, (l.take m).foldlM (init := (v, 0)) (fun (st : List α × Nat) i => (do
      match values[st.2]? with
      | some x =>
        let w ← setItem st.1 i x
        .ok (w, st.2 + 1)
      | none => .error .indexError : PyRes (List α × Nat))) = .ok (w, m) ∧ w.length = v.length ∧
      (∀ k : Nat, k < m → a + k * s < b ∧ w[a + k * s]? = values[k]?) ∧
      (∀ i : Nat, (∀ k : Nat, k < m → i ≠ a + k * s) → w[i]? = v[i]?) := by
    intro m
    induction m with
    | zero => exact fun _ => ⟨v, rfl, rfl, fun k hk => absurd hk (by omega), fun i _ => rfl⟩
    | succ m ih =>
      intro hm
      obtain ⟨w, ew, lw, h1, h2⟩ := ih (by omega)
      have hlm := hl m
      rw [List.getElem?_eq_getElem (by omega)] at hlm
      split at hlm
      · rename_i hmb
        have hlm := Option.some.inj hlm
        refine ⟨w.set (a + m * s) (values[m]'(hn m hmb)), ?_, by simpa using lw, ?_, ?_⟩
        · rw [List.take_succ_eq_append_getElem (by omega), List.foldlM_append, ew]
          show List.foldlM _ _ _ = _
          rw [List.foldlM_cons, hlm]
          show (match values[m]? with | some x => _ | none => _) >>= _ = _
          rw [List.getElem?_eq_getElem (hn m hmb)]
          have hset := C64_set_partial w (values[m]'(hn m hmb)) ((a + m * s : Nat) : Int)
          unfold pySetItem at hset
          rw [if_neg (by omega), if_pos (by omega), Int.toNat_natCast] at hset
          dsimp only
          rw [hset]
          rfl
        · intro k hk
          by_cases hkm : k = m
          · subst hkm
            refine ⟨hmb, ?_⟩
            rw [List.getElem?_set_self (by omega), List.getElem?_eq_getElem (hn k hmb)]
          · obtain ⟨g1, g2⟩ := h1 k (by omega)
            refine ⟨g1, ?_⟩
            rw [List.getElem?_set_ne, g2]
            intro hc
            exact hkm (Nat.eq_of_mul_eq_mul_right hs (by omega))
        · intro i hi
          rw [List.getElem?_set_ne (fun hc => hi m (by omega) hc.symm)]
          exact h2 i fun k hk => hi k (by omega)
      · cases hlm
  obtain ⟨w, ew, lw, h1, h2⟩ := loop l.length le_rfl
  rw [List.take_length] at ew
  refine ⟨w, ?_, lw, ?_, ?_⟩
  · unfold pySetSlice
    rw [e]
    rw [show (Except.ok l >>= fun is => _ : PyRes (List α)) = _ from rfl]
    exact (congrArg (fun m : PyRes (List α × Nat) => m >>= fun r => pure r.1) ew).trans rfl
  · intro k hk
    refine (h1 k ?_).2
    by_contra hc
    have := hl k
    rw [if_pos hk, List.getElem?_eq_none (by omega)] at this
    cases this
  · intro i hi
    refine h2 i fun k hk hc => ?_
    have := hi k hc
    have := (h1 k hk).1
    omega

end

/-- C64 fails for assignments: one index too far, or a slice that a python list would cut at its end, writes outside the vector; a slice with a negative
bound raises an exception; and -1, which can be read, cannot be written. -/
theorem C64_not_set :
    pySetItem [1, 2, 3] 3 (0 : ℚ) = .error .crash ∧
    pySetSlice [1, 2, 3] ⟨some 0, some 4, none⟩ [(5 : ℚ), 6, 7, 8] = .error .crash ∧
    pyGetSlice [(1 : ℚ), 2, 3] ⟨some (-2), none, none⟩ = .error .overflowError ∧
    (pyGetItem [(1 : ℚ), 2, 3] (-1) = .ok 3 ∧ pySetItem [1, 2, 3] (-1) (0 : ℚ) = .error .overflowError) := by decide +kernel

/-- The hypotheses of the theorems about slices can be met. -/
example : pyGetSlice [(1 : ℚ), 2, 3, 4, 5] ⟨some 1, some 5, some 2⟩ = .ok [2, 4] ∧
    pySetSlice [(1 : ℚ), 2, 3, 4, 5] ⟨some 1, some 5, some 2⟩ [7, 8] = .ok [1, 7, 3, 8, 5] ∧
    ∀ k : Nat, 1 + k * 2 < 5 → k < [(7 : ℚ), 8].length :=
  ⟨by decide +kernel, by decide +kernel, by intro k hk; simp; omega⟩

end RBDyn
