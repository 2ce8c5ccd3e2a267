import Verif.Props.RoundTrip

/-! # C73. The limits of the joints are those of the document

What `from_urdf` and `from_yaml` store in `ParserResult::limits` (urdf.cpp:546-578, yaml.cpp:591-653), said in terms of the
document: which joints have limits, what a joint without limits gets, and which numbers are stored. -/

namespace RBDyn
open Graph
variable {K : Type}

/-- The four limits stored under the name of a joint. -/
def Limits.At (L : Limits K) (n : String) (l : JLimits K) : Prop :=
  L.lower.find n = some l.lower ∧ L.upper.find n = some l.upper ∧ L.torque.find n = some l.torque ∧
  L.velocity.find n = some l.velocity

/-- Nothing is stored under the name. -/
def Limits.Without (L : Limits K) (n : String) : Prop :=
  L.lower.find n = none ∧ L.upper.find n = none ∧ L.torque.find n = none ∧ L.velocity.find n = none

/-- The number of degrees of freedom of a joint. -/
def JointType.freedoms : JointType → Nat
  | .Rev => 1 | .Prism => 1 | .Spherical => 3 | .Planar => 3 | .Cylindrical => 2 | .Free => 6 | .Fixed => 0

/-- A joint that may move without limit. -/
def JLimits.Unlimited (n : Nat) (l : JLimits K) : Prop :=
  l.lower = List.replicate n .ninf ∧ l.upper = List.replicate n .inf ∧ l.torque = List.replicate n .inf ∧
  l.velocity = List.replicate n .inf

/-- The list stored for an attribute of `<limit>`: the numbers of the attribute, up to the first that is not finite (the
stream fails on the text `inf`), and nothing at all if the attribute is missing. -/
structure StoredX (a : Option (List (Lim K))) (l : List (Lim K)) : Prop where
  missing : a = none → l = []
  finite : ∀ v : List K, a = some (v.map .val) → l = v.map .val
  cut : ∀ (v : List K) x w, a = some (v.map .val ++ x :: w) → (x = .inf ∨ x = .ninf) → l = v.map .val

private theorem storedX_attr (a : Option (List (Lim K))) : StoredX a (attrToLims a) := by
  have tw : ∀ v : List K, (v.map Lim.val).takeWhile (fun l => match l with | .val _ => true | _ => false) = v.map .val := by
    intro v
    induction v with
    | nil => rfl
    | cons x v ih => rw [List.map_cons, List.takeWhile_cons_of_pos rfl, ih]
  refine ⟨fun h => by rw [h]; rfl, fun v h => by rw [h]; exact tw v, fun v x w h hx => ?_⟩
  rw [h]
  unfold attrToLims
  rw [Option.getD_some, List.takeWhile_append_of_pos]
  · rcases hx with rfl | rfl <;> simp
  · intro y hy
    obtain ⟨z, -, rfl⟩ := List.mem_map.1 hy
    rfl

/-- The limits stored for the joint `j` of type `t` of a URDF document. -/
structure LimitsX (j : XJoint K) (t : JointType) (l : JLimits K) : Prop where
  /-- A fixed joint has none, whatever the document says. -/
  fixed : t = .Fixed → l.Unlimited 0
  /-- No `<limit>`. -/
  none : j.limit = none → l.Unlimited t.freedoms
  /-- A continuous joint has no position limit. -/
  continuous : t ≠ .Fixed → j.type = "continuous" → l.lower = [.ninf] ∧ l.upper = [.inf]
  /-- The position limits. -/
  position : t ≠ .Fixed → j.type ≠ "continuous" → ∀ x, j.limit = some x →
    StoredX x.lower l.lower ∧ StoredX x.upper l.upper
  /-- The limits of the torque and of the velocity. -/
  rates : t ≠ .Fixed → ∀ x, j.limit = some x → StoredX x.effort l.torque ∧ StoredX x.velocity l.velocity

variable [Scalar K]

omit [Scalar K] in
private theorem limits_without (es : List (REdge K)) (n : String) (h : n ∉ es.map (fun e => e.1.j.name)) (L : Limits K)
    (hL : L.Without n) : (es.foldl (fun lim e => lim.set e.1.j.name e.2) L).Without n := by
  induction es generalizing L with
  | nil => exact hL
  | cons x es ih =>
    rw [List.map_cons, List.mem_cons, not_or] at h
    rw [List.foldl_cons]
    refine ih h.2 _ ?_
    obtain ⟨h1, h2, h3, h4⟩ := hL
    refine ⟨?_, ?_, ?_, ?_⟩ <;> simp only [Limits.set, SMap.find_set, if_neg h.1] <;> assumption

private theorem freedoms_eq (t : JointType) : t.freedoms = Joint.nDof t := by cases t <;> rfl

private theorem urdfJoint_dof (env : ParserEnv K) (params : ParserParams) (j : XJoint K) :
    (urdfJoint env params j).dof = (urdfJointType j.type (hasSuffix j.name params.sphericalSuffix)).freedoms := by
  rw [freedoms_eq]
  unfold urdfJoint
  dsimp only
  split <;> split <;> (try split) <;> rfl

private theorem finish_limits {env : ParserEnv K} {name base : String} {fixed : Bool} {s : PSt K} {r : PResult K}
    (h : finish env name base fixed s = .ok r) : r.limits = s.2 := by
  unfold finish at h
  obtain ⟨mb, -, h⟩ := Res.bind_eq_ok.1 h
  obtain ⟨_, -, h⟩ := Res.bind_eq_ok.1 h
  obtain ⟨_, -, h⟩ := Res.bind_eq_ok.1 h
  obtain ⟨_, -, h⟩ := Res.bind_eq_ok.1 h
  obtain ⟨_, -, h⟩ := Res.bind_eq_ok.1 h
  obtain rfl := Except.ok.inj h
  rfl

omit [Scalar K] in
private theorem limitsX_urdf (j : XJoint K) (jt : Joint K) (hd : jt.dof = jt.type.freedoms)
    (hc : j.type = "continuous" → jt.type = .Rev) : LimitsX j jt.type (urdfLimits j jt) := by
  unfold urdfLimits
  constructor
  · intro h
    rw [h] at hd
    cases j.limit with
    | none => dsimp only; rw [hd]; exact ⟨rfl, rfl, rfl, rfl⟩
    | some x => dsimp only; rw [if_neg (not_not.2 h), hd]; exact ⟨rfl, rfl, rfl, rfl⟩
  · intro h
    rw [h, ← hd]; exact ⟨rfl, rfl, rfl, rfl⟩
  · intro h c
    rw [hc c] at hd
    cases j.limit with
    | none => dsimp only; rw [hd]; exact ⟨rfl, rfl⟩
    | some x => dsimp only; rw [if_pos h, if_neg (not_not.2 c), hd]; exact ⟨rfl, rfl⟩
  · intro h c x hx
    rw [hx]; dsimp only; rw [if_pos h, if_pos c]
    exact ⟨storedX_attr _, storedX_attr _⟩
  · intro h x hx
    rw [hx]; dsimp only; rw [if_pos h]
    exact ⟨storedX_attr _, storedX_attr _⟩

/-- **C73** for URDF. Whenever `from_urdf` succeeds, for every robot and all parameters: every joint between two kept links
has its four limits, those of the document (`LimitsX`); the joints above filtered links are fixed and have none; and
nothing is stored for the other names. -/
theorem C73_urdf {env : ParserEnv K} {params : ParserParams} {robot : XRobot K} {r : PResult K}
    (h : fromURDF env (some robot) params = .ok r) :
    (∀ j ∈ robot.joints, (∀ l ∈ robot.links, l.name = j.parent ∨ l.name = j.child → l.Kept params) →
      ∃ l, r.limits.At j.name l ∧ LimitsX j (if j.child ∈ params.filtered then .Fixed
          else declaredURDF j.type (hasSuffix j.name params.sphericalSuffix)) l) ∧
    ∀ n, (∀ j ∈ robot.joints, (∀ l ∈ robot.links, l.name = j.parent ∨ l.name = j.child → l.Kept params) → j.name ≠ n) →
      r.limits.Without n := by
  unfold fromURDF at h
  obtain ⟨⟨name, base, s⟩, hp, hf⟩ := Res.bind_eq_ok.1 h
  dsimp only at hf
  obtain ⟨-, -, bs, es, hbs, hes, hA, hlim⟩ := (parseURDF_iff ..).1 hp
  have A := Graph.assembled_of_ok hA
  rw [finish_limits hf, ← hlim]
  have hnames : es.map (fun e => e.1.j.name) = (readJointsX params robot.links robot.joints).map (fun j => j.name) := by
    refine forall₂_map hes (fun x y h => ?_)
    obtain ⟨-, -, -, e, -⟩ := urdfEdge_spec h
    rw [e, urdfJoint_name]
  have hnd : (es.map (fun e => e.1.j.name)).Nodup := by
    have := A.jnodup
    rwa [List.map_map] at this
  have keep : ∀ j : XJoint K, (∀ l ∈ robot.links, l.name = j.parent ∨ l.name = j.child → l.Kept params) ↔
      goneX params robot.links j.parent = false ∧ goneX params robot.links j.child = false := by
    intro j
    rw [goneX_iff, goneX_iff]
    exact ⟨fun h => ⟨fun l hl e => h l hl (.inl e), fun l hl e => h l hl (.inr e)⟩,
      fun h l hl e => e.elim (h.1 l hl) (h.2 l hl)⟩
  constructor
  · intro j hj hk
    have hk' := (keep j).1 hk
    have hmem : (if fixedX params robot.links j.child then { j with type := "fixed" } else j) ∈
        readJointsX params robot.links robot.joints := by
      unfold readJointsX
      exact List.mem_map.2 ⟨j, List.mem_filter.2 ⟨hj, by rw [hk'.1, hk'.2]; rfl⟩, rfl⟩
    obtain ⟨e, he, hE⟩ := forall₂_exists hes _ hmem
    obtain ⟨-, -, hch, ej, el⟩ := urdfEdge_spec hE
    have hfind := limits_find es hnd ⟨[], [], [], []⟩ e he
    have en : e.1.j.name = j.name := by rw [ej, urdfJoint_name]; split <;> rfl
    rw [en] at hfind
    refine ⟨e.2, hfind, ?_⟩
    have hchild : j.child ∈ bs.map Body.name := by
      have := (A.known e.1 (List.mem_map.2 ⟨e, he, rfl⟩)).2
      rw [hch] at this
      split at this <;> exact this
    have hx : fixedX params robot.links j.child = true ↔ j.child ∈ params.filtered := by
      rw [forall₂_map hbs (fun x y h => urdfBody_name h)] at hchild
      obtain ⟨l, hl, e⟩ := List.mem_map.1 hchild
      rw [List.mem_filter] at hl
      unfold fixedX
      rw [List.any_eq_true]
      constructor
      · rintro ⟨x, -, hx⟩
        simp only [Bool.and_eq_true, decide_eq_true_eq] at hx
        exact hx.2
      · intro hx
        refine ⟨l, hl.1, ?_⟩
        simp only [Bool.and_eq_true, decide_eq_true_eq]
        exact ⟨⟨hl.2, e⟩, hx⟩
    by_cases hm : j.child ∈ params.filtered
    · rw [if_pos hm]
      rw [if_pos (hx.2 hm)] at ej el
      have ht : e.1.j.type = .Fixed := by rw [ej, urdfJoint_type]; rfl
      have hd : e.1.j.dof = e.1.j.type.freedoms := by rw [ej, urdfJoint_dof, urdfJoint_type]
      have := limitsX_urdf { j with type := "fixed" } e.1.j hd (fun h => by simp at h)
      rw [← el, ht] at this
      refine ⟨this.fixed, this.none, fun h => absurd rfl h, fun h => absurd rfl h, fun h => absurd rfl h⟩
    · rw [if_neg hm]
      rw [if_neg (fun h => hm (hx.1 h))] at ej el
      have ht : e.1.j.type = declaredURDF j.type (hasSuffix j.name params.sphericalSuffix) := by
        rw [ej, urdfJoint_type, urdfJointType_eq]
      have hd : e.1.j.dof = e.1.j.type.freedoms := by rw [ej, urdfJoint_dof, urdfJoint_type]
      have := limitsX_urdf j e.1.j hd (fun h => by rw [ht, h]; rfl)
      rwa [← el, ht] at this
  · intro n hn
    refine limits_without es n ?_ _ ⟨rfl, rfl, rfl, rfl⟩
    rw [hnames]
    unfold readJointsX
    rw [List.map_map]
    intro hmem
    obtain ⟨j, hj, e⟩ := List.mem_map.1 hmem
    rw [List.mem_filter, Bool.and_eq_true, Bool.not_eq_true', Bool.not_eq_true'] at hj
    refine hn j hj.1 ((keep j).2 hj.2) ?_
    rw [← e]
    simp only [Function.comp]
    split <;> rfl

/-! ### YAML -/

omit [Scalar K] in
/-- The list stored for a key of `limits`, for a joint with `n` degrees of freedom; `c` is the unit of the document and
`d` the absence of limit. -/
structure StoredY [Mul K] (n : Nat) (d : Lim K) (c : K) (a : Option (YNum K)) (l : List (Lim K)) : Prop where
  missing : a = none → l = List.replicate n d
  scalar : n = 1 → ∀ x : K, a = some (.scalar (.val x)) → l = [.val (x * c)]
  infinite : n = 1 → ∀ x, a = some (.scalar x) → (x = .inf ∨ x = .ninf) → l = [x]
  seq : 1 < n → ∀ v : List K, v.length = n → a = some (.seq (v.map .val)) → l = v.map (fun x => .val (x * c))
  /-- A list is ignored for a joint with one degree of freedom … -/
  ignoredSeq : n = 1 → ∀ v, a = some (.seq v) → l = [d]
  /-- … and a number for a joint with several. -/
  ignoredScalar : 1 < n → ∀ x, a = some (.scalar x) → l = List.replicate n d

/-- The limits stored for the joint `j` of type `t` of a YAML document; `deg` is the size of a degree and `d` is
`robot.anglesInDegrees`. -/
structure LimitsY (deg : K) (d : Bool) (j : YJoint K) (t : JointType) (l : JLimits K) : Prop where
  fixed : t = .Fixed → l.Unlimited 0
  none : j.limits = none → l.Unlimited t.freedoms
  continuous : t ≠ .Fixed → j.type = some "continuous" → l.lower = [.ninf] ∧ l.upper = [.inf]
  position : t ≠ .Fixed → j.type ≠ some "continuous" → ∀ y, j.limits = some y →
    StoredY t.freedoms .ninf (if y.degrees.getD d then deg else 1) y.lower l.lower ∧
    StoredY t.freedoms .inf (if y.degrees.getD d then deg else 1) y.upper l.upper
  velocity : t ≠ .Fixed → ∀ y, j.limits = some y →
    StoredY t.freedoms .inf (if y.degrees.getD d then deg else 1) y.velocity l.velocity
  torque : t ≠ .Fixed → ∀ y, j.limits = some y → StoredY t.freedoms .inf 1 y.effort l.torque

private theorem scaleLims_eq (c : K) {n : Nat} {l l' : List (Lim K)} (hl : l.length = n) (h : scaleLims c n l = .ok l') :
    l' = l.map (Lim.scale c) := by
  unfold scaleLims at h
  obtain ⟨s, hs, e⟩ := foldlM_range_inv (fun l i => do
    let x ← rd l i
    wr l i (x.scale c)) (fun k s => s = (l.take k).map (Lim.scale c) ++ l.drop k) n l (by simp) (by
      intro k s hk hs
      have hk' : k < l.length := by omega
      have hks : k < s.length := by rw [hs]; simp; omega
      rw [rd_ok hks, Res.bind_ok, wr_ok hks]
      refine ⟨_, rfl, ?_⟩
      subst hs
      refine List.ext_getElem? fun i => ?_
      rw [List.getElem?_set]
      by_cases hi : k = i
      · subst hi
        simp [List.getElem?_append, hk', List.getElem_append, Nat.min_eq_left hk'.le, Nat.min_eq_left (Nat.succ_le_of_lt hk')]
      · rw [if_neg hi]
        rcases Nat.lt_or_gt_of_ne hi with h | h
        · rw [List.getElem?_append_right (by simp; omega), List.getElem?_append_right (by simp; omega)]
          simp
          congr 1
          omega
        · rw [List.getElem?_append_left (by simp; omega), List.getElem?_append_left (by simp; omega)]
          simp [List.getElem?_take, h, Nat.lt_succ_of_lt h])
  rw [hs] at h
  rw [← Except.ok.inj h, e, ← hl]
  simp

/-- One list of limits, before and after the conversion of the units. -/
private theorem storedY_of {n : Nat} {d : Lim K} {c : K} {a : Option (YNum K)} {l l' : List (Lim K)} (hn : n ≠ 0)
    (hd : d = .inf ∨ d = .ninf)
    (hs : 1 < n → YNum.asList a (List.replicate n d) = .ok l) (h1 : n = 1 → l = [YNum.asNum a d])
    (hsc : l.length = n → l' = l.map (Lim.scale c)) : StoredY n d c a l' := by
  have hdc : ∀ x : Lim K, (x = .inf ∨ x = .ninf) → x.scale c = x := by rintro x (rfl | rfl) <;> rfl
  have hdef : 1 < n → YNum.asList a (List.replicate n d) = .ok (List.replicate n d) → l' = List.replicate n d := by
    intro h e
    rw [e] at hs
    obtain rfl := (Except.ok.inj (hs h)).symm
    rw [hsc (by simp), List.map_replicate, hdc d hd]
  have hone : n = 1 → l' = [(YNum.asNum a d).scale c] := by
    intro h
    rw [hsc (by rw [h1 h, h]; rfl), h1 h]; rfl
  constructor
  · rintro rfl
    rcases Nat.lt_or_ge 1 n with h | h
    · exact hdef h rfl
    · obtain rfl : n = 1 := by omega
      rw [hone rfl]; simp [YNum.asNum, hdc d hd]
  · rintro h x rfl
    rw [hone h]; rfl
  · rintro h x rfl hx
    rw [hone h]; simp [YNum.asNum, hdc x hx]
  · rintro h v hv rfl
    obtain rfl := (Except.ok.inj (hs h)).symm
    rw [hsc (by simpa using hv), List.map_map]; rfl
  · rintro h v rfl
    rw [hone h]; simp [YNum.asNum, hdc d hd]
  · rintro h x rfl
    exact hdef h rfl

private theorem limitsY_yaml {env : ParserEnv K} {d : Bool} {j : YJoint K} {jt : Joint K} {cont : Bool} {l : JLimits K}
    (hd : jt.dof = jt.type.freedoms) (hcr : cont = true → jt.type = .Rev)
    (hc : jt.type ≠ .Fixed → (cont = true ↔ j.type = some "continuous"))
    (h : yamlLimits env d j.limits jt cont = .ok l) : LimitsY env.deg d j jt.type l := by
  unfold yamlLimits at h
  have h0 : jt.type ≠ .Fixed → jt.type.freedoms ≠ 0 := by cases jt.type <;> simp [JointType.freedoms]
  cases hl : j.limits with
  | none =>
    rw [hl] at h
    obtain rfl := (Except.ok.inj h).symm
    refine ⟨fun h => ?_, fun _ => ?_, fun hF c => ?_, fun _ _ y hy => ?_, fun _ y hy => ?_, fun _ y hy => ?_⟩
    · rw [hd, h]; exact ⟨rfl, rfl, rfl, rfl⟩
    · rw [hd]; exact ⟨rfl, rfl, rfl, rfl⟩
    · rw [hd, hcr ((hc hF).2 c)]; exact ⟨rfl, rfl⟩
    all_goals rw [hl] at hy; cases hy
  | some y =>
    rw [hl] at h
    dsimp only at h
    -- the lists read
    obtain ⟨m, hread, h⟩ : ∃ m : JLimits K, ((jt.dof = 0 → m = JLimits.free K 0) ∧
        (1 < jt.dof → (cont = false → YNum.asList y.lower (List.replicate jt.dof .ninf) = .ok m.lower ∧
            YNum.asList y.upper (List.replicate jt.dof .inf) = .ok m.upper) ∧
          YNum.asList y.effort (List.replicate jt.dof .inf) = .ok m.torque ∧
          YNum.asList y.velocity (List.replicate jt.dof .inf) = .ok m.velocity) ∧
        (jt.dof = 1 → (cont = false → m.lower = [YNum.asNum y.lower .ninf] ∧ m.upper = [YNum.asNum y.upper .inf]) ∧
          (cont = true → m.lower = [.ninf] ∧ m.upper = [.inf]) ∧
          m.torque = [YNum.asNum y.effort .inf] ∧ m.velocity = [YNum.asNum y.velocity .inf])) ∧
        (if y.degrees.getD d then (do
          let lower ← scaleLims env.deg jt.dof m.lower
          let upper ← scaleLims env.deg jt.dof m.upper
          let velocity ← scaleLims env.deg jt.dof m.velocity
          return { m with lower := lower, upper := upper, velocity := velocity })
        else return m : Res (JLimits K)) = .ok l := by
      split at h
      · rename_i hn
        cases cont with
        | true =>
          simp only [Bool.not_true, Bool.false_eq_true, if_false, Res.bind_ok] at h
          obtain ⟨ef, e3, h⟩ := Res.bind_eq_ok.1 h
          obtain ⟨ve, e4, h⟩ := Res.bind_eq_ok.1 h
          exact ⟨⟨(JLimits.free K jt.dof).lower, (JLimits.free K jt.dof).upper, ef, ve⟩, ⟨fun h => by omega, fun _ => ⟨fun c => by simp at c, e3, e4⟩, fun h => by omega⟩, h⟩
        | false =>
          simp only [Bool.not_false, if_true] at h
          obtain ⟨lo, e1, h⟩ := Res.bind_eq_ok.1 h
          obtain ⟨up, e2, h⟩ := Res.bind_eq_ok.1 h
          obtain ⟨ef, e3, h⟩ := Res.bind_eq_ok.1 h
          obtain ⟨ve, e4, h⟩ := Res.bind_eq_ok.1 h
          exact ⟨⟨lo, up, ef, ve⟩, ⟨fun h => by omega, fun _ => ⟨fun c => ⟨e1, e2⟩, e3, e4⟩, fun h => by omega⟩, h⟩
      · rename_i hn
        split at h
        · rename_i hn1
          refine ⟨_, ⟨fun h => by omega, fun h => by omega, fun _ => ⟨fun c => ?_, fun c => ?_, ?_, ?_⟩⟩, h⟩
          · subst c; exact ⟨rfl, rfl⟩
          · subst c; exact ⟨rfl, rfl⟩
          · rfl
          · rfl
        · rename_i hn1
          have hz : jt.dof = 0 := by omega
          exact ⟨_, ⟨fun _ => by rw [hz], fun h => by omega, fun h => by omega⟩, h⟩
    -- the conversion of the units
    have hunit : l.torque = m.torque ∧
        (m.lower.length = jt.dof → l.lower = m.lower.map (Lim.scale (if y.degrees.getD d then env.deg else 1))) ∧
        (m.upper.length = jt.dof → l.upper = m.upper.map (Lim.scale (if y.degrees.getD d then env.deg else 1))) ∧
        (m.velocity.length = jt.dof → l.velocity = m.velocity.map (Lim.scale (if y.degrees.getD d then env.deg else 1))) := by
      have one : ∀ v : List (Lim K), v = v.map (Lim.scale 1) := by
        intro v
        conv_lhs => rw [← List.map_id v]
        refine List.map_congr_left fun x _ => ?_
        cases x <;> simp [Lim.scale]
      split at h
      · rename_i hdeg
        obtain ⟨lo, e1, h⟩ := Res.bind_eq_ok.1 h
        obtain ⟨up, e2, h⟩ := Res.bind_eq_ok.1 h
        obtain ⟨ve, e3, h⟩ := Res.bind_eq_ok.1 h
        obtain rfl := (Except.ok.inj h).symm
        rw [if_pos hdeg]
        exact ⟨rfl, fun n => scaleLims_eq _ n e1, fun n => scaleLims_eq _ n e2, fun n => scaleLims_eq _ n e3⟩
      · rename_i hdeg
        obtain rfl := (Except.ok.inj h).symm
        rw [if_neg hdeg]
        exact ⟨rfl, fun _ => one _, fun _ => one _, fun _ => one _⟩
    clear h
    obtain ⟨u1, u2, u3, u4⟩ := hunit
    obtain ⟨r0, rm, r1⟩ := hread
    have hy : ∀ y', j.limits = some y' → y' = y := fun y' e => by rw [hl] at e; exact (Option.some.inj e).symm
    have hcf : jt.type ≠ .Fixed → j.type ≠ some "continuous" → cont = false := by
      intro hF hn
      rw [← Bool.not_eq_true]
      exact fun c => hn ((hc hF).1 c)
    refine ⟨fun h => ?_, fun h => ?_, fun hF c => ?_, fun hF c y' e => ?_, fun hF y' e => ?_, fun hF y' e => ?_⟩
    · have hz : jt.dof = 0 := by rw [hd, h]; rfl
      have r0 := r0 hz
      subst r0
      refine ⟨u2 hz.symm, u3 hz.symm, u1, u4 hz.symm⟩
    · rw [hl] at h; cases h
    · have hR := hcr ((hc hF).2 c)
      have h1 : jt.dof = 1 := by rw [hd, hR]; rfl
      obtain ⟨-, r2, -⟩ := r1 h1
      obtain ⟨r2, r3⟩ := r2 ((hc hF).2 c)
      rw [u2 (by rw [r2, h1]; rfl), u3 (by rw [r3, h1]; rfl), r2, r3]
      exact ⟨rfl, rfl⟩
    · obtain rfl := hy y' e
      rw [← hd]
      have hc' := hcf hF c
      have hz : jt.dof ≠ 0 := by rw [hd]; exact h0 hF
      exact ⟨storedY_of hz (.inr rfl) (fun h => ((rm h).1 hc').1) (fun h => ((r1 h).1 hc').1) u2,
        storedY_of hz (.inl rfl) (fun h => ((rm h).1 hc').2) (fun h => ((r1 h).1 hc').2) u3⟩
    · obtain rfl := hy y' e
      rw [← hd]
      have hz : jt.dof ≠ 0 := by rw [hd]; exact h0 hF
      exact storedY_of hz (.inl rfl) (fun h => (rm h).2.2) (fun h => (r1 h).2.2.2) u4
    · obtain rfl := hy y' e
      rw [← hd]
      have hz : jt.dof ≠ 0 := by rw [hd]; exact h0 hF
      refine storedY_of hz (.inl rfl) (fun h => (rm h).2.1) (fun h => (r1 h).2.2.1) (fun _ => ?_)
      rw [u1]
      conv_lhs => rw [← List.map_id m.torque]
      refine List.map_congr_left fun x _ => ?_
      cases x <;> simp [Lim.scale]

private theorem yamlType_cont {params : ParserParams} {t : Option String} {name : String} {tc : JointType × Bool}
    {fixed : Bool} (h : yamlType params t name fixed = .ok tc) :
    (tc.2 = true → tc.1 = .Rev) ∧ (tc.1 ≠ .Fixed → (tc.2 = true ↔ t = some "continuous")) := by
  unfold yamlType at h
  split at h
  · rw [← Except.ok.inj h]; exact ⟨fun h => by simp at h, fun h => absurd rfl h⟩
  · cases t with
    | none => rw [← Except.ok.inj h]; exact ⟨fun _ => rfl, fun _ => by simp⟩
    | some t =>
      dsimp only at h
      obtain ⟨jt, hjt, h⟩ := Res.bind_eq_ok.1 h
      rw [← Except.ok.inj h]
      dsimp only
      by_cases hf : t = "floating"
      · subst hf
        rw [if_pos rfl]
        split <;> simp
      · rw [if_neg hf] at hjt ⊢
        simp only [decide_eq_true_eq, Option.some.injEq, imp_self, iff_self, implies_true, and_true]
        intro e
        subst e
        rw [← Except.ok.inj hjt]

/-- **C73** for YAML. Whenever `from_yaml` succeeds, for every robot and all parameters: every joint between two kept
links has its four limits, those of the document (`LimitsY`), and nothing is stored for the other names. -/
theorem C73_yaml {env : ParserEnv K} {params : ParserParams} {robot : YRobot K} {r : PResult K}
    (h : fromYAML env (some robot) params = .ok r) :
    ∃ L d J, robot.links = some L ∧ robot.degrees = some d ∧ robot.joints = some J ∧
      (∀ j ∈ nameJoints (goneY params L) 1 J,
        (∀ l ∈ nameLinks params 1 L, l.name = j.parent ∨ l.name = j.child → l.Kept params) →
        ∃ l t, r.limits.At j.name l ∧ LimitsY env.deg d j.j t l ∧
          some t = if j.child ∈ params.filtered then some .Fixed
            else declaredYAML j.j.type (hasSuffix j.name params.sphericalSuffix)) ∧
      ∀ n, (∀ j ∈ nameJoints (goneY params L) 1 J,
          (∀ l ∈ nameLinks params 1 L, l.name = j.parent ∨ l.name = j.child → l.Kept params) → j.name ≠ n) →
        r.limits.Without n := by
  unfold fromYAML at h
  obtain ⟨⟨name, base, s⟩, hp, hf⟩ := Res.bind_eq_ok.1 h
  dsimp only at hf
  obtain ⟨-, L, d, J, hL, hD, hJ, -, bs, es, hbs, hes, hA, hlim⟩ := (parseYAML_iff ..).1 hp
  have A := Graph.assembled_of_ok hA
  rw [finish_limits hf, ← hlim]
  have hnames : es.map (fun e => e.1.j.name) = (readJointsY params L J).map NJoint.name := by
    refine forall₂_map hes (fun x y h => ?_)
    obtain ⟨tc, axis, f, -, -, -, e, -⟩ := yamlEdge_spec h
    rw [e]; rfl
  have hnd : (es.map (fun e => e.1.j.name)).Nodup := by
    have := A.jnodup
    rwa [List.map_map] at this
  have keep : ∀ j : NJoint K, (∀ l ∈ nameLinks params 1 L, l.name = j.parent ∨ l.name = j.child → l.Kept params) ↔
      (goneY params L j.child || goneY params L j.parent) = false := by
    intro j
    rw [Bool.or_eq_false_iff, goneY_iff, goneY_iff]
    exact ⟨fun h => ⟨fun l hl e => h l hl (.inr e), fun l hl e => h l hl (.inl e)⟩,
      fun h l hl e => e.elim (h.2 l hl) (h.1 l hl)⟩
  refine ⟨L, d, J, hL, hD, hJ, ?_, ?_⟩
  · intro j hj hk
    have hk' := (keep j).1 hk
    have hmem : j ∈ readJointsY params L J := List.mem_filter.2 ⟨hj, by rw [hk']; rfl⟩
    obtain ⟨e, he, hE⟩ := forall₂_exists hes _ hmem
    obtain ⟨tc, axis, f, h1, -, -, ej, el⟩ := yamlEdge_spec hE
    have hfind := limits_find es hnd ⟨[], [], [], []⟩ e he
    have en : e.1.j.name = j.name := by rw [ej]; rfl
    rw [en] at hfind
    have hc := yamlType_cont h1
    refine ⟨e.2, tc.1, hfind, limitsY_yaml (jt := Joint.mk' tc.1 axis true j.name) (freedoms_eq _).symm hc.1 hc.2 el, ?_⟩
    have hchild : j.child ∈ bs.map Body.name := by
      have := (A.known e.1 (List.mem_map.2 ⟨e, he, rfl⟩)).2
      rwa [ej] at this
    have hx : fixedY params L j.child = true ↔ j.child ∈ params.filtered := by
      rw [forall₂_map hbs (fun x y h => yamlBody_name h)] at hchild
      obtain ⟨l, hl, e⟩ := List.mem_map.1 hchild
      unfold fixedY
      rw [List.any_eq_true]
      constructor
      · rintro ⟨x, -, hx⟩
        simp only [Bool.and_eq_true, decide_eq_true_eq] at hx
        exact hx.2
      · intro hx
        refine ⟨l, hl, ?_⟩
        simp only [Bool.and_eq_true, decide_eq_true_eq]
        exact ⟨e, hx⟩
    by_cases hm : j.child ∈ params.filtered
    · rw [hx.2 hm] at h1
      rw [if_pos hm, ← Except.ok.inj h1]
    · rw [Bool.eq_false_iff.2 (fun h => hm (hx.1 h))] at h1
      rw [if_neg hm, ← yamlType_eq h1]
  · intro n hn
    refine limits_without es n ?_ _ ⟨rfl, rfl, rfl, rfl⟩
    rw [hnames]
    intro hmem
    obtain ⟨j, hj, e⟩ := List.mem_map.1 hmem
    unfold readJointsY at hj
    rw [List.mem_filter, Bool.not_eq_true'] at hj
    exact hn j hj.1 ((keep j).2 hj.2) e

/-! ### Examples and disagreements -/

/-- Two links joined by a joint of the given type and limits. -/
def Sample.limX (type : String) (l : Option (XLimit ℚ)) : XRobot ℚ :=
  let i : Option (XInertial ℚ) := some ⟨none, some (some 2), some ⟨some 1, none, none, some 1, none, some 1⟩⟩
  { name := some "r"
    links := [⟨"a", i⟩, ⟨"b", i⟩]
    joints := [⟨"j", type, "a", "b", none, none, l, none⟩] }

/-- The same for YAML. -/
def Sample.limY (d : Bool) (type : String) (l : Option (YLimits ℚ)) : YRobot ℚ :=
  let i : Option (YInertial ℚ) := some ⟨some 2, none, none⟩
  { name := some "r"
    degrees := some d
    links := some [⟨some "a", i⟩, ⟨some "b", i⟩]
    joints := some [⟨some "j", some "a", some "b", some type, none, none, l⟩] }

/-- An environment with a small degree. -/
def Sample.envD : ParserEnv ℚ := ⟨id, fun _ => 0, id, 0, 1 / 57, Sample.junk⟩

/-- Limits of a revolute joint, of a continuous joint and of a joint without limits are read. -/
example :
    (match fromURDF Sample.envD (some (Sample.limX "revolute" (some ⟨some [.val 1], some [.val 2], some [.val 3], some [.val 4]⟩))) {} with
      | .ok r => decide (r.limits.lower.find "j" = some [.val 1]) && decide (r.limits.upper.find "j" = some [.val 2]) &&
          decide (r.limits.torque.find "j" = some [.val 3]) && decide (r.limits.velocity.find "j" = some [.val 4]) &&
          decide (r.limits.lower.find "b" = none)
      | .error _ => false) = true ∧
    (match fromURDF Sample.envD (some (Sample.limX "continuous" (some ⟨some [.val 1], some [.val 2], some [.val 3], some [.val 4]⟩))) {} with
      | .ok r => decide (r.limits.lower.find "j" = some [.ninf]) && decide (r.limits.velocity.find "j" = some [.val 4])
      | .error _ => false) = true ∧
    (match fromURDF Sample.envD (some (Sample.limX "floating" none)) {} with
      | .ok r => decide (r.limits.lower.find "j" = some (List.replicate 6 .ninf))
      | .error _ => false) = true := by decide +kernel

/-- Degrees in YAML. -/
example :
    (match fromYAML Sample.envD (some (Sample.limY true "revolute" (some ⟨some (.scalar (.val 57)), none, some (.scalar (.val 3)), some (.scalar (.val 114)), none⟩))) {} with
      | .ok r => decide (r.limits.lower.find "j" = some [.val 1]) && decide (r.limits.upper.find "j" = some [.inf]) &&
          decide (r.limits.torque.find "j" = some [.val 3]) && decide (r.limits.velocity.find "j" = some [.val 2])
      | .error _ => false) = true ∧
    (match fromYAML Sample.envD (some (Sample.limY true "revolute" (some ⟨some (.scalar (.val 57)), none, none, none, some false⟩))) {} with
      | .ok r => decide (r.limits.lower.find "j" = some [.val 57])
      | .error _ => false) = true ∧
    (match fromYAML Sample.envD (some (Sample.limY false "ball" (some ⟨none, some (.seq [.val 1, .val 2, .val 3]), none, none, none⟩))) {} with
      | .ok r => decide (r.limits.upper.find "j" = some [.val 1, .val 2, .val 3])
      | .error _ => false) = true := by decide +kernel

/-- A revolute joint whose `<limit>` gives the effort and the velocity and leaves `lower` and `upper` to their defaults, as
URDF allows: the reader stores empty lists for a joint with one degree of freedom, and then both writers read the first
element of an empty vector. -/
theorem C73_not_defaults : ∃ r, fromURDF Sample.envD
      (some (Sample.limX "revolute" (some ⟨none, none, some [.val 3], some [.val 4]⟩))) {} = .ok r ∧
    r.limits.lower.find "j" = some [] ∧ toURDF Sample.envD r = .error .ub ∧ toYAML Sample.envD r = .error .ub := by
  have h : (match fromURDF Sample.envD (some (Sample.limX "revolute" (some ⟨none, none, some [.val 3], some [.val 4]⟩))) {} with
    | .ok r => decide (r.limits.lower.find "j" = some []) &&
        (match toURDF Sample.envD r, toYAML Sample.envD r with
        | .error .ub, .error .ub => true
        | _, _ => false)
    | .error _ => false) = true := by decide +kernel
  split at h
  · rename_i r hr
    rw [Bool.and_eq_true, decide_eq_true_eq] at h
    obtain ⟨h1, h2⟩ := h
    split at h2
    · rename_i e1 e2
      exact ⟨r, hr, h1, e1, e2⟩
    · simp at h2
  · simp at h

/-- With `anglesInDegrees: true` the limits of a prismatic joint, which are lengths, are converted as if they were
angles. -/
theorem C73_not_lengths : ∃ r, fromYAML Sample.envD (some (Sample.limY true "prismatic"
      (some ⟨some (.scalar (.val 1)), some (.scalar (.val 2)), none, none, none⟩))) {} = .ok r ∧
    r.mb.joints.map (fun j => (j.name, j.type)) = [("Root", .Fixed), ("j", .Prism)] ∧
    r.limits.lower.find "j" = some [.val (1 / 57)] ∧ r.limits.upper.find "j" = some [.val (2 / 57)] := by
  have h : (match fromYAML Sample.envD (some (Sample.limY true "prismatic"
      (some ⟨some (.scalar (.val 1)), some (.scalar (.val 2)), none, none, none⟩))) {} with
    | .ok r => decide (r.mb.joints.map (fun j => (j.name, j.type)) = [("Root", .Fixed), ("j", .Prism)] ∧
        r.limits.lower.find "j" = some [.val (1 / 57)] ∧ r.limits.upper.find "j" = some [.val (2 / 57)])
    | .error _ => false) = true := by decide +kernel
  split at h
  · rename_i r hr
    exact ⟨r, hr, of_decide_eq_true h⟩
  · simp at h

/-- An infinite limit does not survive URDF: a revolute joint with a lower limit only is written with `upper="inf"`, read
back with an empty list, and the robot so obtained can no longer be written. -/
theorem C73_not_infinite : ∃ r doc r', fromYAML Sample.envD (some (Sample.limY false "revolute"
      (some ⟨some (.scalar (.val 1)), none, none, none, none⟩))) {} = .ok r ∧
    r.limits.upper.find "j" = some [.inf] ∧ toURDF Sample.envD r = .ok doc ∧
    fromURDF Sample.envD (some doc) {} = .ok r' ∧ r'.limits.upper.find "j" = some [] ∧
    toURDF Sample.envD r' = .error .ub := by
  have h : (match fromYAML Sample.envD (some (Sample.limY false "revolute"
      (some ⟨some (.scalar (.val 1)), none, none, none, none⟩))) {} with
    | .ok r => decide (r.limits.upper.find "j" = some [.inf]) && (match toURDF Sample.envD r with
      | .ok doc => (match fromURDF Sample.envD (some doc) {} with
        | .ok r' => decide (r'.limits.upper.find "j" = some []) &&
          (match toURDF Sample.envD r' with | .error .ub => true | _ => false)
        | .error _ => false)
      | .error _ => false)
    | .error _ => false) = true := by decide +kernel
  split at h
  · rename_i r hr
    rw [Bool.and_eq_true, decide_eq_true_eq] at h
    obtain ⟨h1, h2⟩ := h
    split at h2
    · rename_i doc hd
      split at h2
      · rename_i r' hr'
        rw [Bool.and_eq_true, decide_eq_true_eq] at h2
        obtain ⟨h3, h4⟩ := h2
        split at h4
        · rename_i e
          exact ⟨r, doc, r', hr, h1, hd, hr', h3, e⟩
        · simp at h4
      · simp at h2
    · simp at h2
  · simp at h

/-- A list of one number is not a number: the limit of a revolute joint written that way is dropped without a word. -/
theorem C73_not_list : ∃ r, fromYAML Sample.envD (some (Sample.limY false "revolute"
      (some ⟨some (.seq [.val 1]), none, none, none, none⟩))) {} = .ok r ∧
    r.limits.lower.find "j" = some [.ninf] := by
  have h : (match fromYAML Sample.envD (some (Sample.limY false "revolute"
      (some ⟨some (.seq [.val 1]), none, none, none, none⟩))) {} with
    | .ok r => decide (r.limits.lower.find "j" = some [.ninf])
    | .error _ => false) = true := by decide +kernel
  split at h
  · rename_i r hr
    exact ⟨r, hr, of_decide_eq_true h⟩
  · simp at h

end RBDyn
