import Verif.Lemmas.RoundTrip

/-! Robots written in URDF and read back. -/

namespace RBDyn
open Graph
open scoped Mat3
variable {K : Type} [Scalar K]

/-- The numbers are printed exactly. -/
def ParserEnv.Prints (env : ParserEnv K) (l : List K) : Prop := ∀ x ∈ l, env.print x = x

/-- The numbers printed for the body. -/
def Body.numbers (b : Body K) : List K :=
  let c := b.inertia.m⁻¹ • b.inertia.h
  let M := writeInertia b.inertia
  [b.inertia.m, c.x, c.y, c.z, M.m00, M.m01, M.m02, M.m11, M.m12, M.m22]

/-- A link written in URDF is read back. -/
theorem urdfBody_write {env : ParserEnv K} (he : 0 ≤ env.eps) {params : ParserParams} (hp : params.transformInertia = true)
    {b : Body K} (hb : b.Writable env) (hpr : env.Prints b.numbers) :
    urdfBody params (writeXLink env b) = .ok b := by
  unfold writeXLink
  dsimp only
  rcases hb with ⟨hm, hI, hc⟩ | hz
  · rw [if_pos (by simp [hm])]
    unfold urdfBody
    dsimp only
    have hcom : writeCom b.inertia = b.inertia.m⁻¹ • b.inertia.h := if_pos hm
    simp only [ParserEnv.Prints, Body.numbers, List.mem_cons, forall_eq_or_imp, List.not_mem_nil, false_imp_iff,
      implies_true, and_true, ← hcom] at hpr
    obtain ⟨p0, p1, p2, p3, q00, q01, q02, q11, q12, q22⟩ := hpr
    rw [p0, p1, p2, p3, q00, q01, q02, q11, q12, q22]
    have hsym := writeInertia_symm b.inertia
    have hM : readInertia ⟨some (writeInertia b.inertia).m00, some (writeInertia b.inertia).m01,
        some (writeInertia b.inertia).m02, some (writeInertia b.inertia).m11, some (writeInertia b.inertia).m12,
        some (writeInertia b.inertia).m22⟩ = writeInertia b.inertia := by
      rw [Mat3.ext_iff] at hsym
      simp only [Mat3.tr] at hsym
      obtain ⟨-, h01, h02, -, -, h12, -⟩ := hsym
      ext <;> simp [readInertia, h01, h02, h12]
    have hz : urdfRPYList [0, 0, 0] = .ok (1 : Mat3 K) := by
      show Except.ok (urdfRPY 0 0 0) = _
      rw [urdfRPY_zero]
    have hend : Body.ofCom b.inertia.m (writeCom b.inertia)
        (inertiaToOrigin (writeInertia b.inertia) b.inertia.m (writeCom b.inertia) 1) b.name = b := by
      unfold writeInertia
      rw [inertiaToOrigin_back, hcom, Body.ofCom_eq b hm]
    rw [hI, hp]
    cases hcz : (writeCom b.inertia).isZeroE env.eps with
    | true =>
      have h0 : writeCom b.inertia = 0 := by rw [hcom] at hcz ⊢; exact hc hcz
      rw [h0] at hend
      simp only [Bool.not_true, Bool.false_eq_true, if_false, hz, Res.bind_ok, if_pos hm, Bool.not_false, if_true,
        Option.getD_some, hM, hend]
      rfl
    | false =>
      simp only [Bool.not_false, if_true, Option.getD_none, hz, Res.bind_ok, if_pos hm,
        Option.getD_some, hM, attrToVector, hend]
      rfl
  · obtain ⟨I, n⟩ := b
    dsimp only at hz
    subst hz
    rw [if_neg (by simp [Vec3.isZeroE_zero he, Sym3.isZeroE_zero he])]
    unfold urdfBody
    dsimp only
    rw [Body.ofCom_zero]

/-- The frame can be written in URDF: the tolerance does not round its parts to zero, its numbers are printed exactly
and the reader finds the same rotation from the angles. -/
structure PTransform.WritableX (env : ParserEnv K) (X : PTransform K) : Prop where
  r : X.r.Sharp env.eps
  rpy : (env.euler X.E.tr).Sharp env.eps
  euler : urdfRPY (env.euler X.E.tr).x (env.euler X.E.tr).y (env.euler X.E.tr).z = X.E
  prints : env.Prints [X.r.x, X.r.y, X.r.z, (env.euler X.E.tr).x, (env.euler X.E.tr).y, (env.euler X.E.tr).z]

/-- A frame written in URDF is read back. -/
theorem urdfOrigin_write {env : ParserEnv K} {X : PTransform K} (h : X.WritableX env) :
    urdfOrigin ([X].filterMap (writeOrigin env)).head? = .ok X := by
  have hh : ([X].filterMap (writeOrigin env)).head? = writeOrigin env X := by
    rw [List.filterMap_cons]
    cases writeOrigin env X <;> rfl
  rw [hh]
  unfold writeOrigin
  dsimp only
  have hp := h.prints
  simp only [ParserEnv.Prints, List.mem_cons, forall_eq_or_imp, List.not_mem_nil, false_imp_iff,
      implies_true, and_true] at hp
  obtain ⟨p1, p2, p3, p4, p5, p6⟩ := hp
  rw [p1, p2, p3, p4, p5, p6]
  have hE := h.euler
  have hX : (⟨X.E, X.r⟩ : PTransform K) = X := rfl
  cases h1 : X.r.isZeroE env.eps with
  | true =>
    have hr := h.r h1
    cases h2 : (env.euler X.E.tr).isZeroE env.eps with
    | true =>
      rw [h.rpy h2] at hE
      have hE' : urdfRPY (0 : K) 0 0 = X.E := hE
      rw [urdfRPY_zero] at hE'
      show Except.ok (1 : PTransform K) = _
      rw [← hX, ← hE', hr]
      rfl
    | false =>
      show (urdfRPYList _ >>= _) = _
      unfold urdfRPYList
      simp only [Bool.not_false, if_true, Bool.not_true, Bool.false_eq_true, if_false, Option.getD_some, hE]
      show Except.ok (⟨X.E, 0⟩ : PTransform K) = _
      rw [← hr]
  | false =>
    cases h2 : (env.euler X.E.tr).isZeroE env.eps with
    | true =>
      rw [h.rpy h2] at hE
      have hE' : urdfRPY (0 : K) 0 0 = X.E := hE
      show (urdfRPYList _ >>= _) = _
      unfold urdfRPYList
      simp only [Bool.not_true, Bool.false_eq_true, if_false, Option.getD_none, hE']
      rfl
    | false =>
      show (urdfRPYList _ >>= _) = _
      unfold urdfRPYList
      simp only [Bool.not_false, if_true, Option.getD_some, hE]
      rfl

/-- The joint can be written in URDF: as in YAML, it can also follow another joint, and its axis is normalised. -/
structure Joint.WritableX (env : ParserEnv K) (j : Joint K) : Prop where
  out : ∃ k : Joint K, k.Writable env ∧
    (j = k ∨ k.type ≠ .Fixed ∧ ∃ n m o, env.Prints [m, o] ∧ j = k.makeMimic n m o)
  axis : j.type = .Rev ∨ j.type = .Prism → ∀ a, writeAxis j = .ok a → env.normalized a = a ∧ env.Prints [a.x, a.y, a.z]

/-- The limits are numbers printed exactly. -/
def ParserEnv.PrintsLims (env : ParserEnv K) (l : List (Lim K)) : Prop :=
  l ≠ [] ∧ ∀ x ∈ l, ∃ v, x = .val v ∧ env.print v = v

theorem attrToLims_write {env : ParserEnv K} {l : List (Lim K)} (h : env.PrintsLims l) :
    attrToLims (some (l.map (fun x => match x with | .val x => .val (env.print x) | x => x))) = l := by
  have hl := h.2
  clear h
  unfold attrToLims
  rw [Option.getD_some]
  induction l with
  | nil => rfl
  | cons x l ih =>
    obtain ⟨v, rfl, hv⟩ := hl x (by simp)
    rw [List.map_cons, List.takeWhile_cons]
    simp only [if_true, hv]
    rw [ih (fun y hy => hl y (by simp [hy]))]

/-- A joint written in URDF is read back, with its limits if they are finite numbers. -/
theorem urdfEdge_write {env : ParserEnv K} (he : 0 ≤ env.eps) {r : PResult K} {e : Edge K} (hj : e.j.WritableX env)
    (hl : r.limits.Filled e.j.name) (hX : e.X.WritableX env)
    (info : jointInfo r e.j = (do
      let type ← writeType r.limits e.j
      let axis ← writeAxis e.j
      return ⟨type, e.parent, e.child, [e.X], axis⟩)) :
    ∃ (y : XJoint K) (l : JLimits K), writeXJoint env r e.j = .ok y ∧ y.name = e.j.name ∧
      y.parent = e.parent ∧ y.child = e.child ∧
      (∀ (params : ParserParams), params.sphericalSuffix = "_spherical" → urdfEdge env params y = .ok (e, l)) ∧
      (∀ lo up ef ve : List (Lim K), e.j.type ≠ .Fixed → r.limits.lower.find e.j.name = some lo →
        r.limits.upper.find e.j.name = some up → r.limits.torque.find e.j.name = some ef →
        r.limits.velocity.find e.j.name = some ve → env.PrintsLims lo → env.PrintsLims up → env.PrintsLims ef →
        env.PrintsLims ve → l = ⟨lo, up, ef, ve⟩) := by
  obtain ⟨k, hk, hjk⟩ := hj.out
  have hsame : e.j.name = k.name ∧ e.j.type = k.type ∧ writeAxis e.j = writeAxis k ∧
      writeType r.limits e.j = writeType r.limits k := by
    rcases hjk with h | ⟨-, n, m, o, -, h⟩ <;> rw [h] <;> exact ⟨rfl, rfl, rfl, rfl⟩
  have hl' := hl
  rw [hsame.1] at hl'
  obtain ⟨type, axis, cont, h1, h2, h3, t, a, hja, ht, ha⟩ := hk.written he hl'
  rw [← hsame.2.1, ← hsame.1] at h3
  rw [← hsame.2.2.2] at h1
  rw [← hsame.2.2.1] at h2
  have htk : k.type = t := by rw [hja]; rfl
  have htype : e.j.type = t := hsame.2.1.trans htk
  let pr (m : SMap (List (Lim K))) : Option (List (Lim K)) :=
    (m.find e.j.name).map (fun l => l.map (fun x => match x with | .val x => .val (env.print x) | x => x))
  let y : XJoint K := {
    name := e.j.name, type := type, parent := e.parent, child := e.child
    origin := ([e.X].filterMap (writeOrigin env)).head?
    axis := if !axis.isZeroE env.eps then
      some (some [env.print axis.x, env.print axis.y, env.print axis.z]) else none
    limit := if hasLimits r.limits e.j.name && !cont then
      some ⟨pr r.limits.lower, pr r.limits.upper, pr r.limits.torque, pr r.limits.velocity⟩ else none
    mimic := if e.j.isMimic then
      some ⟨e.j.mimicName, some (env.print e.j.mimicMultiplier), some (env.print e.j.mimicOffset)⟩ else none }
  have hjoint : ∀ params : ParserParams, params.sphericalSuffix = "_spherical" → urdfJoint env params y = e.j := by
    intro params hp
    have hty : urdfJointType type (hasSuffix e.j.name params.sphericalSuffix) = t := by
      rw [hp, hsame.1]
      rcases ht with ⟨rfl, rfl, -⟩ | ⟨rfl, rfl, -⟩ | ⟨rfl, rfl, -⟩ | ⟨rfl, rfl, -⟩ | ⟨rfl, rfl, -, hs⟩
      · rfl
      · rfl
      · rfl
      · rfl
      · rw [hs]; rfl
    have hnm : k = Joint.mk' t a true e.j.name := by rw [hsame.1]; exact hja
    have hread : urdfJoint env params y = (match y.mimic with
        | some m => if k.type ≠ .Fixed then k.makeMimic m.joint (m.multiplier.getD 1) (m.offset.getD 0) else k
        | none => k) := by
      rcases ha with ⟨z, rfl, hrp⟩ | ⟨z, htf⟩
      · obtain ⟨e1, e2⟩ := hj.axis (htype ▸ hrp) axis h2
        simp only [ParserEnv.Prints, List.mem_cons, forall_eq_or_imp, List.not_mem_nil, false_imp_iff,
          implies_true, and_true] at e2
        have : y.axis = some (some [axis.x, axis.y, axis.z]) := by
          show (if _ then _ else _) = _
          rw [z, e2.1, e2.2.1, e2.2.2]; rfl
        unfold urdfJoint
        simp only [this, attrToVector]
        rw [show y.type = type from rfl, show y.name = e.j.name from rfl, hty, show (⟨axis.x, axis.y, axis.z⟩ : Vec3 K) = axis from rfl,
          e1, ← hnm]
        cases y.mimic <;> rfl
      · have : y.axis = none := by
          show (if _ then _ else _) = _
          rw [z]; rfl
        unfold urdfJoint
        simp only [this]
        rw [show y.type = type from rfl, show y.name = e.j.name from rfl, hty, Joint.mk'_axis htf Vec3.unitZ a, ← hnm]
        cases y.mimic <;> rfl
    rw [hread]
    rcases hjk with h | ⟨hf, mn, m, o, hmo, h⟩
    · have : y.mimic = none := by
        show (if _ then _ else _) = _
        rw [if_neg ?_]
        rw [h, hnm]
        simp [Joint.mk']
      rw [this, h]
    · simp only [ParserEnv.Prints, List.mem_cons, forall_eq_or_imp, List.not_mem_nil, false_imp_iff,
          implies_true, and_true] at hmo
      have : y.mimic = some ⟨mn, some m, some o⟩ := by
        show (if _ then _ else _) = _
        have q : e.j.isMimic = true ∧ e.j.mimicName = mn ∧ e.j.mimicMultiplier = m ∧ e.j.mimicOffset = o := by
          rw [h]; exact ⟨rfl, rfl, rfl, rfl⟩
        rw [q.1, q.2.1, q.2.2.1, q.2.2.2, hmo.1, hmo.2]
        rfl
      rw [this]
      simp only [Option.getD_some]
      rw [if_pos hf, h]
  refine ⟨y, urdfLimits y e.j, ?_, rfl, rfl, rfl, ?_, ?_⟩
  · unfold writeXJoint
    rw [info, h1, Res.bind_ok, h2, Res.bind_ok, pure_bind]
    dsimp only
    by_cases hr : e.j.type = .Rev
    · rw [if_pos hr] at h3 ⊢
      rw [h3, Res.bind_ok]
      rfl
    · rw [if_neg hr] at h3 ⊢
      obtain rfl := Except.ok.inj h3
      rw [Res.bind_ok]
      rfl
  · intro params hp
    unfold urdfEdge
    rw [hjoint params hp]
    rw [show y.origin = ([e.X].filterMap (writeOrigin env)).head? from rfl, urdfOrigin_write hX, Res.bind_ok]
    rfl
  · intro lo up ef ve hnf e1 e2 e3 e4 p1 p2 p3 p4
    have hcont : cont = false := by
      by_cases hr : e.j.type = .Rev
      · rw [if_pos hr] at h3
        unfold isContinuous at h3
        rw [e1, e2] at h3
        obtain ⟨hn, hv⟩ := p2
        cases up with
        | nil => exact absurd rfl hn
        | cons u up =>
          obtain ⟨v, rfl, -⟩ := hv u (by simp)
          simp [firstNe] at h3
          exact h3
      · rw [if_neg hr] at h3
        exact (Except.ok.inj h3).symm
    have hhas : hasLimits r.limits e.j.name = true := by
      unfold hasLimits
      dsimp only
      rw [e1, e2, e3, e4]
      simp [List.isEmpty_iff, p1.1, p2.1, p3.1, p4.1]
    have hlim : y.limit = some ⟨pr r.limits.lower, pr r.limits.upper, pr r.limits.torque, pr r.limits.velocity⟩ := by
      show (if _ then _ else _) = _
      rw [hhas, hcont]; rfl
    have hnc : y.type ≠ "continuous" := by
      show type ≠ "continuous"
      rcases ht with ⟨rfl, -⟩ | ⟨-, -, hc⟩ | ⟨rfl, -⟩ | ⟨rfl, -⟩ | ⟨rfl, -⟩
      · decide
      · rw [hcont] at hc; cases hc
      · decide
      · decide
      · decide
    unfold urdfLimits
    rw [hlim]
    simp only [ne_eq, hnf, not_false_eq_true, if_true, hnc, pr, e1, e2, e3, e4, Option.map_some]
    rw [attrToLims_write p1, attrToLims_write p2, attrToLims_write p3, attrToLims_write p4]

/-- The whole document: what is read back. -/
theorem urdf_round_trip {env : ParserEnv K} (he : 0 ≤ env.eps) {r : PResult K} {base : String} {fixed : Bool}
    (S : r.Standard env base fixed) (hb : ∀ b ∈ r.mb.bodies, b.Writable env ∧ env.Prints b.numbers)
    (hj : ∀ j ∈ r.mb.joints.tail, j.WritableX env ∧ r.limits.Filled j.name)
    (hX : ∀ X ∈ r.mb.Xt.tail, X.WritableX env) :
    ∃ (doc : XRobot K) (r' : PResult K), toURDF env r = .ok doc ∧
      fromURDF env (some doc) { fixed := fixed } = .ok r' ∧ r'.name = r.name ∧ r'.mb = r.mb ∧ r'.mbc = r.mbc ∧
      ∀ j ∈ r.mb.joints.tail, ∀ lo up ef ve : List (Lim K), j.type ≠ .Fixed → r.limits.lower.find j.name = some lo →
        r.limits.upper.find j.name = some up → r.limits.torque.find j.name = some ef →
        r.limits.velocity.find j.name = some ve → env.PrintsLims lo → env.PrintsLims up → env.PrintsLims ef →
        env.PrintsLims ve →
        r'.limits.lower.find j.name = some lo ∧ r'.limits.upper.find j.name = some up ∧
        r'.limits.torque.find j.name = some ef ∧ r'.limits.velocity.find j.name = some ve := by
  obtain ⟨n, SP⟩ := S.spec
  obtain ⟨es, E⟩ := SP.edges
  have hjes : ∀ e ∈ es, e.j ∈ r.mb.joints.tail := fun e h => by rw [E.joints]; exact List.mem_map_of_mem h
  have hXes : ∀ e ∈ es, e.X ∈ r.mb.Xt.tail := by
    intro e h
    obtain ⟨t, ht⟩ := List.mem_iff_getElem?.1 h
    obtain ⟨p, bp, bc, -, -, -, -, -, -, h7, -⟩ := E.links.edge t e ht
    refine List.mem_of_getElem? (i := t) ?_
    rw [List.getElem?_tail]
    exact h7
  obtain ⟨yl, hyl⟩ := exists_forall₂ (R := fun (e : Edge K) (p : XJoint K × JLimits K) =>
      writeXJoint env r e.j = .ok p.1 ∧ p.1.name = e.j.name ∧ p.1.parent = e.parent ∧ p.1.child = e.child ∧
      (∀ (params : ParserParams), params.sphericalSuffix = "_spherical" → urdfEdge env params p.1 = .ok (e, p.2)) ∧
      (∀ lo up ef ve : List (Lim K), e.j.type ≠ .Fixed → r.limits.lower.find e.j.name = some lo →
        r.limits.upper.find e.j.name = some up → r.limits.torque.find e.j.name = some ef →
        r.limits.velocity.find e.j.name = some ve → env.PrintsLims lo → env.PrintsLims up → env.PrintsLims ef →
        env.PrintsLims ve → p.2 = ⟨lo, up, ef, ve⟩)) es (by
    intro e h
    obtain ⟨h1, h2⟩ := hj _ (hjes e h)
    obtain ⟨y, l, h⟩ := urdfEdge_write he h1 h2 (hX _ (hXes e h)) (E.info e h)
    exact ⟨(y, l), h⟩)
  obtain ⟨s, hs, A⟩ := assemble_ok (bs := r.mb.bodies) (es := es) SP.bnames E.jnodup E.known
  obtain ⟨b0, hb0'⟩ : ∃ b, r.mb.bodies[0]? = some b :=
    ⟨_, List.getElem?_eq_getElem (by have : r.mb.bodies.length = n := SP.same.b; have := SP.pos; omega)⟩
  have hmake := E.remake SP A hb0'
  let rs : List (REdge K) := es.zip (yl.map Prod.snd)
  have hlen := hyl.length_eq
  have hrs1 : rs.map Prod.fst = es := by
    show (es.zip _).map Prod.fst = es
    rw [List.map_fst_zip (by rw [List.length_map]; omega)]
  let doc : XRobot K := ⟨some r.name, r.mb.bodies.map (writeXLink env), yl.map Prod.fst⟩
  let params : ParserParams := { fixed := fixed }
  let lim : Limits K := rs.foldl (fun lim e => lim.set e.1.j.name e.2) ⟨[], [], [], []⟩
  have hdoc : toURDF env r = .ok doc := by
    unfold toURDF
    rw [E.writeJoints SP (xs := yl.map Prod.fst) ?_]
    · rfl
    · rw [List.forall₂_map_right_iff]
      exact hyl.imp (fun e p h => h.1)
  have hkept : ∀ l : XLink K, l.kept params = true := by
    intro l
    unfold XLink.kept
    simp [params]
  have hkl : (r.mb.bodies.map (writeXLink env)).filter (XLink.kept params) = r.mb.bodies.map (writeXLink env) :=
    List.filter_eq_self.2 (fun l _ => hkept l)
  have hrj : readJointsX params (r.mb.bodies.map (writeXLink env)) (yl.map Prod.fst) = yl.map Prod.fst := by
    unfold readJointsX
    have hgone : ∀ m, goneX params (r.mb.bodies.map (writeXLink env)) m = false := by
      intro m
      unfold goneX
      rw [List.any_eq_false]
      intro l _
      rw [hkept l]; simp
    have hfix : ∀ m, fixedX params (r.mb.bodies.map (writeXLink env)) m = false := by
      intro m
      unfold fixedX
      rw [List.any_eq_false]
      intro l _
      simp [params]
    rw [List.filter_eq_self.2 (by intro j _; rw [hgone, hgone]; rfl)]
    simp [hfix]
  have hparse : parseURDF env (some doc) params = .ok (r.name, b0.name, (s, lim)) := by
    rw [parseURDF_iff]
    refine ⟨rfl, ?_, r.mb.bodies, rs, ?_, ?_, ?_, rfl⟩
    · show ∃ l ∈ ((r.mb.bodies.map (writeXLink env)).filter (XLink.kept params)).head?, _
      rw [hkl]
      refine ⟨writeXLink env b0, ?_, rfl⟩
      rw [List.head?_map, List.head?_eq_getElem?, hb0']
      rfl
    · show List.Forall₂ _ ((r.mb.bodies.map (writeXLink env)).filter (XLink.kept params)) _
      rw [hkl, List.forall₂_map_left_iff, List.forall₂_same]
      intro b hbm
      exact urdfBody_write he rfl (hb b hbm).1 (hb b hbm).2
    · show List.Forall₂ _ (readJointsX params (r.mb.bodies.map (writeXLink env)) (yl.map Prod.fst)) _
      rw [hrj]
      have : ∀ {l : List (Edge K)} {m : List (XJoint K × JLimits K)},
          List.Forall₂ (fun e p => urdfEdge env params p.1 = .ok (e, p.2)) l m →
          List.Forall₂ (fun j e => urdfEdge env params j = .ok e) (m.map Prod.fst) (l.zip (m.map Prod.snd)) := by
        intro l m h
        induction h with
        | nil => exact .nil
        | cons h _ ih => exact .cons h ih
      exact this (hyl.imp (fun e p h => h.2.2.2.2.1 _ rfl))
    · rw [hrs1]; exact hs
  refine ⟨doc, ⟨r.name, r.mb, r.mbc, s.1, s.2, lim⟩, hdoc, ?_, rfl, rfl, rfl, ?_⟩
  · unfold fromURDF
    rw [show ({ fixed := fixed } : ParserParams) = params from rfl, hparse, Res.bind_ok]
    exact finish_of_mb S.made hmake
  · intro j hjm lo up ef ve hd h1 h2 h3 h4 p1 p2 p3 p4
    rw [E.joints] at hjm
    obtain ⟨e, hem, rfl⟩ := List.mem_map.1 hjm
    obtain ⟨p, hp, hmem⟩ := forall₂_zip hyl hem
    have hl := hp.2.2.2.2.2 lo up ef ve hd h1 h2 h3 h4 p1 p2 p3 p4
    have := limits_find rs (by
      rw [show rs.map (fun e => e.1.j.name) = (rs.map Prod.fst).map (fun e => e.j.name) by rw [List.map_map]; rfl, hrs1]
      exact E.jnodup) ⟨[], [], [], []⟩ (e, p.2) hmem
    rw [hl] at this
    exact this

end RBDyn
