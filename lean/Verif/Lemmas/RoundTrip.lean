import Verif.Lemmas.Standard
import Verif.Lemmas.YAML

/-! Links, frames and joints written and read back. -/

namespace RBDyn
open Graph
open scoped Mat3
variable {K : Type} [Scalar K]

/-! ### What can be written -/

/-- The tolerance does not round the vector to zero. -/
def Vec3.Sharp (eps : K) (v : Vec3 K) : Prop := v.isZeroE eps = true → v = 0

/-- The writers print all there is to know of the inertia of the body: either it has a mass and an inertia matrix, or
nothing. -/
def Body.Writable (env : ParserEnv K) (b : Body K) : Prop :=
  (0 < b.inertia.m ∧ b.inertia.I.isZeroE env.eps = false ∧ (b.inertia.m⁻¹ • b.inertia.h).Sharp env.eps) ∨
  b.inertia = ⟨0, 0, 0⟩

/-- The joint can be written: it moves in its own direction along an axis that is not zero, or it is a fixed joint, or a
free joint the name of which does not say that it is spherical. -/
def Joint.Writable (env : ParserEnv K) (j : Joint K) : Prop :=
  (∃ (axis : Vec3 K) (n : String), axis.isZeroE env.eps = false ∧
    (j = Joint.mk' .Rev axis true n ∨ j = Joint.mk' .Prism axis true n)) ∨
  (∃ (axis : Vec3 K) (n : String), j = Joint.mk' .Fixed axis true n) ∨
  ∃ (axis : Vec3 K) (n : String), hasSuffix n "_spherical" = false ∧ j = Joint.mk' .Free axis true n

/-- The lists of the limits of the joint, if any, are not empty. -/
def Limits.Filled (l : Limits K) (n : String) : Prop :=
  ∀ x, (l.lower.find n = some x ∨ l.upper.find n = some x) → x ≠ []

/-! ### Links -/

theorem Vec3.isZeroE_zero {eps : K} (h : 0 ≤ eps) : (0 : Vec3 K).isZeroE eps = true := by
  simp [Vec3.isZeroE, h]

theorem Sym3.isZeroE_zero {eps : K} (h : 0 ≤ eps) : (0 : Sym3 K).isZeroE eps = true := by
  simp [Sym3.isZeroE, h]

theorem angleAxis_zero (a : Vec3 K) : angleAxis 0 a = 1 := by
  ext <;> simp [angleAxis]

theorem yamlRPY_zero : yamlRPY (0 : K) 0 0 = 1 := by
  unfold yamlRPY
  rw [angleAxis_zero, angleAxis_zero, angleAxis_zero]
  ext <;> simp [Mat3.tr]

theorem urdfRPY_zero : urdfRPY (0 : K) 0 0 = 1 := by
  ext <;> simp [urdfRPY, Mat3.tr]

/-- Moving the inertia to the centre of mass and back. -/
theorem inertiaToOrigin_back (A : Mat3 K) (m : K) (c : Vec3 K) :
    inertiaToOrigin (inertiaToOrigin A (-m) c 1) m c 1 = A := by
  ext <;> simp [inertiaToOrigin, Mat3.tr, Mat3.crossMat] <;> ring

/-- The matrix printed is symmetric. -/
theorem writeInertia_symm (I : RBInertia K) : (writeInertia I).tr = writeInertia I := by
  ext <;> simp [writeInertia, inertiaToOrigin, Mat3.tr, Mat3.crossMat, Sym3.toMat] <;> ring

theorem Body.ofCom_eq (b : Body K) (hm : 0 < b.inertia.m) :
    Body.ofCom b.inertia.m (b.inertia.m⁻¹ • b.inertia.h) b.inertia.I.toMat b.name = b := by
  obtain ⟨⟨m, h, I⟩, n⟩ := b
  dsimp only at hm ⊢
  unfold Body.ofCom RBInertia.ofMat
  rw [Sym3.ofLower_toMat]
  congr 2
  ext <;> simp [hm.ne']

theorem Body.ofCom_zero (n : String) : Body.ofCom (0 : K) 0 0 n = ⟨⟨0, 0, 0⟩, n⟩ := by
  unfold Body.ofCom RBInertia.ofMat
  congr 2
  · simp

/-- A link written in YAML is read back. -/
theorem yamlBody_write {env : ParserEnv K} (he : 0 ≤ env.eps) {params : ParserParams} (hp : params.transformInertia = true)
    {b : Body K} (hb : b.Writable env) :
    yamlBody env params false b.name (writeYLink env b).inertial = .ok b := by
  unfold writeYLink
  dsimp only
  rcases hb with ⟨hm, hI, hc⟩ | hz
  · rw [if_pos (by simp [hm])]
    unfold yamlBody
    dsimp only
    have hcom : writeCom b.inertia = b.inertia.m⁻¹ • b.inertia.h := if_pos hm
    have hf : yamlFrame env false (if (!(writeCom b.inertia).isZeroE env.eps) = true then
        some (⟨some [(writeCom b.inertia).x, (writeCom b.inertia).y, (writeCom b.inertia).z], none, none⟩ : YFrame K)
        else none) = .ok (writeCom b.inertia, 0) := by
      rw [hcom]
      cases hz : (b.inertia.m⁻¹ • b.inertia.h).isZeroE env.eps with
      | true => rw [hc hz]; rfl
      | false => rfl
    rw [hf, Res.bind_ok]
    dsimp only
    rw [if_pos hm, hI, hp]
    have hsym := writeInertia_symm b.inertia
    have hM : yamlInertia (some ⟨some (writeInertia b.inertia).m00, some (writeInertia b.inertia).m11,
        some (writeInertia b.inertia).m22, some (writeInertia b.inertia).m12, some (writeInertia b.inertia).m02,
        some (writeInertia b.inertia).m01⟩) = writeInertia b.inertia := by
      rw [Mat3.ext_iff] at hsym
      simp only [Mat3.tr] at hsym
      obtain ⟨-, h01, h02, -, -, h12, -⟩ := hsym
      ext <;> simp [yamlInertia, h01, h02, h12]
    simp only [Bool.not_false, if_true, Option.getD_some, hM]
    show Except.ok _ = _
    congr 1
    have h0 : yamlRPY (0 : Vec3 K).x (0 : Vec3 K).y (0 : Vec3 K).z = 1 := yamlRPY_zero
    rw [h0]
    unfold writeInertia
    rw [inertiaToOrigin_back, hcom, Body.ofCom_eq b hm]
  · obtain ⟨I, n⟩ := b
    dsimp only at hz
    subst hz
    rw [if_neg (by simp [Vec3.isZeroE_zero he, Sym3.isZeroE_zero he])]
    unfold yamlBody
    dsimp only
    rw [Body.ofCom_zero]

/-! ### Frames -/

/-- The frame can be written: the tolerance does not round its parts to zero, and the angles are those of the matrix,
which is the contract of `eulerAngles(0, 1, 2)`. -/
structure PTransform.Writable (env : ParserEnv K) (X : PTransform K) : Prop where
  r : X.r.Sharp env.eps
  rpy : (env.euler X.E.tr).Sharp env.eps
  euler : angleAxis (env.euler X.E.tr).x ⟨1, 0, 0⟩ * angleAxis (env.euler X.E.tr).y ⟨0, 1, 0⟩ *
    angleAxis (env.euler X.E.tr).z ⟨0, 0, 1⟩ = X.E.tr

/-- A frame written in YAML is read back. -/
theorem yamlFrame_write {env : ParserEnv K} {X : PTransform K} (h : X.Writable env) :
    yamlFrame env false ([X].filterMap (writeFrame env)).head? = .ok (X.r, env.euler X.E.tr) := by
  have hh : ([X].filterMap (writeFrame env)).head? = writeFrame env X := by
    rw [List.filterMap_cons]
    cases writeFrame env X <;> rfl
  rw [hh]
  unfold writeFrame
  dsimp only
  cases h1 : X.r.isZeroE env.eps with
  | true =>
    cases h2 : (env.euler X.E.tr).isZeroE env.eps with
    | true => rw [h.r h1, h.rpy h2]; rfl
    | false => rw [h.r h1]; rfl
  | false =>
    cases h2 : (env.euler X.E.tr).isZeroE env.eps with
    | true => rw [h.rpy h2]; rfl
    | false => rfl

/-! ### Joints -/

theorem isContinuous_ok {l : Limits K} {n : String} (h : l.Filled n) : ∃ c, isContinuous l n = .ok c := by
  have hf : ∀ (o : Option (List (Lim K))) (b : Lim K), (∀ x, o = some x → x ≠ []) → ∃ c, firstNe o b = .ok c := by
    intro o b ho
    cases o with
    | none => exact ⟨_, rfl⟩
    | some x =>
      cases x with
      | nil => exact absurd rfl (ho [] rfl)
      | cons y l => exact ⟨_, rfl⟩
  obtain ⟨u, hu⟩ := hf (l.upper.find n) .inf (fun x hx => h x (Or.inr hx))
  obtain ⟨w, hw⟩ := hf (l.lower.find n) .ninf (fun x hx => h x (Or.inl hx))
  unfold isContinuous
  split
  · exact ⟨_, rfl⟩
  · rename_i h1
    rw [hu, Res.bind_ok]
    cases u with
    | true => exact ⟨_, rfl⟩
    | false => simp only [Bool.false_eq_true, if_false]; rw [hw]; exact ⟨_, rfl⟩

/-- The type and the axis of a joint that can be written. -/
theorem Joint.Writable.written {env : ParserEnv K} (he : 0 ≤ env.eps) {j : Joint K} (hj : j.Writable env) {l : Limits K}
    (hl : l.Filled j.name) :
    ∃ (type : String) (axis : Vec3 K) (cont : Bool), writeType l j = .ok type ∧ writeAxis j = .ok axis ∧
      (if j.type = .Rev then isContinuous l j.name else .ok false) = .ok cont ∧
      ∃ (t : JointType) (a : Vec3 K), j = Joint.mk' t a true j.name ∧
      ((type = "revolute" ∧ t = .Rev ∧ cont = false) ∨ (type = "continuous" ∧ t = .Rev ∧ cont = true) ∨
        (type = "prismatic" ∧ t = .Prism ∧ cont = false) ∨ (type = "fixed" ∧ t = .Fixed ∧ cont = false) ∨
        (type = "floating" ∧ t = .Free ∧ cont = false ∧ hasSuffix j.name "_spherical" = false)) ∧
      ((axis.isZeroE env.eps = false ∧ axis = a ∧ (t = .Rev ∨ t = .Prism)) ∨ (axis.isZeroE env.eps = true ∧ (t = .Fixed ∨ t = .Free))) := by
  rcases hj with ⟨a, n, ha, rfl | rfl⟩ | ⟨a, n, rfl⟩ | ⟨a, n, hs, rfl⟩
  · obtain ⟨c, hc⟩ := isContinuous_ok (n := n) hl
    have hax : writeAxis (Joint.mk' .Rev a true n : Joint K) = .ok a := by
      show (rd (Joint.mkS 1 .Rev a) 0 >>= _) = _
      simp [Joint.mkS, rd]
    cases c with
    | true =>
      exact ⟨"continuous", a, true, by unfold writeType; show (isContinuous l n >>= _) = _; rw [hc]; rfl, hax, hc,
        .Rev, a, rfl, by simp, Or.inl ⟨ha, rfl, by simp⟩⟩
    | false =>
      exact ⟨"revolute", a, false, by unfold writeType; show (isContinuous l n >>= _) = _; rw [hc]; rfl, hax, hc,
        .Rev, a, rfl, by simp, Or.inl ⟨ha, rfl, by simp⟩⟩
  · have hax : writeAxis (Joint.mk' .Prism a true n : Joint K) = .ok a := by
      show (rd (Joint.mkS 1 .Prism a) 0 >>= _) = _
      simp [Joint.mkS, rd]
    exact ⟨"prismatic", a, false, rfl, hax, rfl, .Prism, a, rfl, by simp, Or.inl ⟨ha, rfl, by simp⟩⟩
  · exact ⟨"fixed", 0, false, rfl, rfl, rfl, .Fixed, a, rfl, by simp, Or.inr ⟨Vec3.isZeroE_zero he, by simp⟩⟩
  · exact ⟨"floating", 0, false, rfl, rfl, rfl, .Free, a, rfl, by simp; exact hs,
      Or.inr ⟨Vec3.isZeroE_zero he, by simp⟩⟩

theorem Joint.mk'_axis {t : JointType} (h : t = .Fixed ∨ t = .Free) (a a' : Vec3 K) (f : Bool) (n : String) :
    (Joint.mk' t a f n : Joint K) = Joint.mk' t a' f n := by
  rcases h with rfl | rfl <;> rfl

/-- A joint written in YAML is read back, with its limits if they are finite numbers. -/
theorem yamlEdge_write {env : ParserEnv K} (he : 0 ≤ env.eps) {r : PResult K} {e : Edge K} (hj : e.j.Writable env)
    (hl : r.limits.Filled e.j.name) (hfree : e.j.type = .Free → hasLimits r.limits e.j.name = false)
    (hX : e.X.Writable env)
    (info : jointInfo r e.j = (do
      let type ← writeType r.limits e.j
      let axis ← writeAxis e.j
      return ⟨type, e.parent, e.child, [e.X], axis⟩)) :
    ∃ (y : YJoint K) (l : JLimits K), writeYJoint env r e.j = .ok y ∧ y.name = some e.j.name ∧
      y.parent = some e.parent ∧ y.child = some e.child ∧
      (∀ (params : ParserParams) (fx : String → Bool), params.sphericalSuffix = "_spherical" → fx e.child = false →
        yamlEdge env params false fx ⟨e.j.name, e.parent, e.child, y⟩ = .ok (e, l)) ∧
      (∀ lo up ef ve : Lim K, e.j.dof = 1 → r.limits.lower.find e.j.name = some [lo] →
        r.limits.upper.find e.j.name = some [up] → r.limits.torque.find e.j.name = some [ef] →
        r.limits.velocity.find e.j.name = some [ve] → ¬ (lo = .ninf ∧ up = .inf) → l = ⟨[lo], [up], [ef], [ve]⟩) := by
  obtain ⟨type, axis, cont, h1, h2, h3, t, a, hja, ht, ha⟩ := hj.written he hl
  obtain ⟨P, C, X, j⟩ := e
  dsimp only at *
  generalize hn : j.name = n at *
  subst hja
  have hdof : (Joint.mk' t a true n : Joint K).dof = Joint.nDof t := rfl
  have htype : (Joint.mk' t a true n : Joint K).type = t := rfl
  rw [htype] at hfree
  rw [hdof]
  -- the limits
  generalize hlim : (if hasLimits r.limits n && !cont then
      some (⟨(r.limits.lower.find n).map writeYNum, (r.limits.upper.find n).map writeYNum,
        (r.limits.torque.find n).map writeYNum, (r.limits.velocity.find n).map writeYNum, none⟩ : YLimits K)
      else none) = lim
  have hread : ∃ l, (∀ a' : Vec3 K, yamlLimits env false lim (Joint.mk' t a' true n) cont = .ok l) ∧
      (∀ lo up ef ve : Lim K, Joint.nDof t = 1 → r.limits.lower.find n = some [lo] →
        r.limits.upper.find n = some [up] → r.limits.torque.find n = some [ef] →
        r.limits.velocity.find n = some [ve] → ¬ (lo = .ninf ∧ up = .inf) → l = ⟨[lo], [up], [ef], [ve]⟩) := by
    have hlims : ∀ lo up ef ve : Lim K, r.limits.lower.find n = some [lo] →
        r.limits.upper.find n = some [up] → r.limits.torque.find n = some [ef] →
        r.limits.velocity.find n = some [ve] → ¬ (lo = .ninf ∧ up = .inf) → hasLimits r.limits n = true ∧
        cont = false := by
      intro lo up ef ve e1 e2 e3 e4 hne
      refine ⟨by simp [hasLimits, e1, e2, e3, e4], ?_⟩
      by_cases hr : t = .Rev
      · rw [htype, if_pos hr] at h3
        unfold isContinuous at h3
        rw [e1, e2] at h3
        simp only [firstNe, Res.bind_ok] at h3
        by_cases hu : up = .inf
        · have hlo : lo ≠ .ninf := fun h => hne ⟨h, hu⟩
          simp [hu, hlo] at h3
          exact h3
        · simp [hu] at h3
          exact h3
      · rw [htype, if_neg hr] at h3
        exact (Except.ok.inj h3).symm
    by_cases hc : hasLimits r.limits n && !cont
    · rw [if_pos hc] at hlim
      subst hlim
      rw [Bool.and_eq_true, Bool.not_eq_true'] at hc
      have hnf : t ≠ .Free := fun h => by rw [hfree h] at hc; exact absurd hc.1 (by simp)
      obtain ⟨hc1, rfl⟩ := hc
      have hcase : Joint.nDof t = 1 ∨ Joint.nDof t = 0 := by
        rcases ht with ⟨-, rfl, -⟩ | ⟨-, rfl, -⟩ | ⟨-, rfl, -⟩ | ⟨-, rfl, -⟩ | ⟨-, rfl, -⟩
        · exact Or.inl rfl
        · exact Or.inl rfl
        · exact Or.inl rfl
        · exact Or.inr rfl
        · exact absurd rfl hnf
      rcases hcase with h | h
      · refine ⟨⟨[YNum.asNum ((r.limits.lower.find n).map writeYNum) .ninf],
          [YNum.asNum ((r.limits.upper.find n).map writeYNum) .inf],
          [YNum.asNum ((r.limits.torque.find n).map writeYNum) .inf],
          [YNum.asNum ((r.limits.velocity.find n).map writeYNum) .inf]⟩, ?_, ?_⟩
        · intro a'
          have hd : (Joint.mk' t a' true n : Joint K).dof = 1 := h
          unfold yamlLimits
          simp [hd]
        · intro lo up ef ve _ e1 e2 e3 e4 _
          simp [e1, e2, e3, e4, writeYNum, YNum.asNum]
      · refine ⟨JLimits.free K 0, ?_, by intro lo up ef ve h'; omega⟩
        intro a'
        have hd : (Joint.mk' t a' true n : Joint K).dof = 0 := h
        unfold yamlLimits
        simp [hd]
    · rw [if_neg hc] at hlim
      subst hlim
      refine ⟨JLimits.free K (Joint.nDof t), fun _ => rfl, ?_⟩
      intro lo up ef ve _ e1 e2 e3 e4 hne
      obtain ⟨c1, c2⟩ := hlims lo up ef ve e1 e2 e3 e4 hne
      rw [c1, c2] at hc
      exact absurd rfl hc
  obtain ⟨l, hl1, hl2⟩ := hread
  refine ⟨⟨some n, some P, some C, some type,
    if !axis.isZeroE env.eps then some [axis.x, axis.y, axis.z] else none, ([X].filterMap (writeFrame env)).head?, lim⟩,
    l, ?_, rfl, rfl, rfl, ?_, hl2⟩
  · unfold writeYJoint
    rw [info, h1, Res.bind_ok, h2, Res.bind_ok, pure_bind, hn]
    dsimp only
    by_cases hr : (Joint.mk' t a true n : Joint K).type = .Rev
    · rw [if_pos hr] at h3 ⊢
      rw [h3, Res.bind_ok, ← hlim]
      rfl
    · rw [if_neg hr] at h3 ⊢
      obtain rfl := Except.ok.inj h3
      rw [Res.bind_ok, ← hlim]
      rfl
  · intro params fx hp hfx
    unfold yamlEdge
    dsimp only
    rw [hfx]
    have hty : yamlType params (some type) n false = .ok (t, cont) := by
      unfold yamlType
      rw [if_neg (by simp), hp]
      rcases ht with ⟨rfl, rfl, rfl⟩ | ⟨rfl, rfl, rfl⟩ | ⟨rfl, rfl, rfl⟩ | ⟨rfl, rfl, rfl⟩ | ⟨rfl, rfl, rfl, hs⟩
      · rfl
      · rfl
      · rfl
      · rfl
      · rw [hs]; rfl
    rw [hty, Res.bind_ok, yamlFrame_write hX]
    have hE : yamlRPY (env.euler X.E.tr).x (env.euler X.E.tr).y (env.euler X.E.tr).z = X.E := by
      unfold yamlRPY; rw [hX.euler, Mat3.tr_tr]
    rcases ha with ⟨z, rfl, -⟩ | ⟨z, htf⟩
    · rw [z]
      simp only [Bool.not_false, if_true, yamlAxis, yamlVec3, Res.bind_ok, hl1, hE]
      rfl
    · rw [z]
      simp only [Bool.not_true, Bool.false_eq_true, if_false, yamlAxis, Res.bind_ok, hl1, hE]
      rw [Joint.mk'_axis htf Vec3.unitZ a]
      rfl

/-! ### Documents -/

omit [Scalar K] in
theorem exists_forall₂ {α β : Type} {R : α → β → Prop} (l : List α) (h : ∀ a ∈ l, ∃ b, R a b) :
    ∃ m, List.Forall₂ R l m := by
  induction l with
  | nil => exact ⟨[], .nil⟩
  | cons a l ih =>
    obtain ⟨b, hb⟩ := h a (by simp)
    obtain ⟨m, hm⟩ := ih (fun x hx => h x (by simp [hx]))
    exact ⟨b :: m, .cons hb hm⟩

omit [Scalar K] in
/-- Limits of the joints of distinct names stored one after the other. -/
theorem limits_find (es : List (REdge K)) (hn : (es.map (fun e => e.1.j.name)).Nodup) (L : Limits K) (e : REdge K)
    (he : e ∈ es) :
    let L' := es.foldl (fun lim e => lim.set e.1.j.name e.2) L
    L'.lower.find e.1.j.name = some e.2.lower ∧ L'.upper.find e.1.j.name = some e.2.upper ∧
    L'.torque.find e.1.j.name = some e.2.torque ∧ L'.velocity.find e.1.j.name = some e.2.velocity := by
  have hout : ∀ (es : List (REdge K)) (L : Limits K) (n : String), n ∉ es.map (fun e => e.1.j.name) →
      let L' := es.foldl (fun lim e => lim.set e.1.j.name e.2) L
      L'.lower.find n = L.lower.find n ∧ L'.upper.find n = L.upper.find n ∧ L'.torque.find n = L.torque.find n ∧
      L'.velocity.find n = L.velocity.find n := by
    intro es
    induction es with
    | nil => intro L n _; exact ⟨rfl, rfl, rfl, rfl⟩
    | cons x es ih =>
      intro L n h
      rw [List.map_cons, List.mem_cons, not_or] at h
      have := ih (L.set x.1.j.name x.2) n h.2
      simp only [List.foldl_cons]
      refine ⟨this.1.trans ?_, this.2.1.trans ?_, this.2.2.1.trans ?_, this.2.2.2.trans ?_⟩ <;>
      · simp only [Limits.set, SMap.find_set, if_neg h.1]
  induction es generalizing L with
  | nil => cases he
  | cons x es ih =>
    rw [List.map_cons, List.nodup_cons] at hn
    rcases List.mem_cons.1 he with rfl | he
    · have := hout es (L.set e.1.j.name e.2) e.1.j.name hn.1
      simp only [List.foldl_cons]
      refine ⟨this.1.trans ?_, this.2.1.trans ?_, this.2.2.1.trans ?_, this.2.2.2.trans ?_⟩ <;>
      · simp only [Limits.set, SMap.find_set, if_true]
    · exact ih hn.2 _ he

theorem nameLinks_write (env : ParserEnv K) (params : ParserParams) (i : Nat) (bs : List (Body K)) :
    nameLinks params i (bs.map (writeYLink env)) = bs.map (fun b => ⟨b.name, (writeYLink env b).inertial⟩) := by
  induction bs generalizing i with
  | nil => rfl
  | cons b bs ih => rw [List.map_cons, nameLinks, ih]; rfl

theorem nameJoints_write {es : List (Edge K)} {yl : List (YJoint K × JLimits K)} {Q : NJoint K → REdge K → Prop}
    (h : List.Forall₂ (fun e p => p.1.name = some e.j.name ∧ p.1.parent = some e.parent ∧ p.1.child = some e.child ∧
      Q ⟨e.j.name, e.parent, e.child, p.1⟩ (e, p.2)) es yl) (gone : String → Bool) (i : Nat) :
    List.Forall₂ Q (nameJoints gone i (yl.map Prod.fst)) (es.zip (yl.map Prod.snd)) := by
  induction h generalizing i with
  | nil => exact .nil
  | cons h _ ih =>
    obtain ⟨h1, h2, h3, h4⟩ := h
    rw [List.map_cons, List.map_cons, nameJoints, List.zip_cons_cons]
    dsimp only
    refine .cons ?_ (ih _)
    rw [h1, h2, h3]
    exact h4

omit [Scalar K] in
theorem forall₂_zip {α β γ : Type} {R : α → β × γ → Prop} {l : List α} {m : List (β × γ)} (h : List.Forall₂ R l m)
    {a : α} (ha : a ∈ l) : ∃ p, R a p ∧ (a, p.2) ∈ l.zip (m.map Prod.snd) := by
  induction h with
  | nil => cases ha
  | @cons x p l m h _ ih =>
    rw [List.map_cons, List.zip_cons_cons]
    rcases List.mem_cons.1 ha with rfl | ha
    · exact ⟨p, h, by simp⟩
    · obtain ⟨q, h1, h2⟩ := ih ha
      exact ⟨q, h1, List.mem_cons_of_mem _ h2⟩

/-- The whole document: what is read back. -/
theorem yaml_round_trip {env : ParserEnv K} (he : 0 ≤ env.eps) {r : PResult K} {base : String} {fixed : Bool}
    (S : r.Standard env base fixed) (hb : ∀ b ∈ r.mb.bodies, b.Writable env)
    (hb0 : ∀ b, r.mb.bodies[0]? = some b → b.name ≠ "")
    (hj : ∀ j ∈ r.mb.joints.tail, j.Writable env ∧ r.limits.Filled j.name ∧
      (j.type = .Free → hasLimits r.limits j.name = false))
    (hX : ∀ X ∈ r.mb.Xt.tail, X.Writable env) :
    ∃ (doc : YRobot K) (r' : PResult K), toYAML env r = .ok doc ∧
      fromYAML env (some doc) { fixed := fixed } = .ok r' ∧ r'.name = r.name ∧ r'.mb = r.mb ∧ r'.mbc = r.mbc ∧
      ∀ j ∈ r.mb.joints.tail, ∀ lo up ef ve : Lim K, j.dof = 1 → r.limits.lower.find j.name = some [lo] →
        r.limits.upper.find j.name = some [up] → r.limits.torque.find j.name = some [ef] →
        r.limits.velocity.find j.name = some [ve] → ¬ (lo = .ninf ∧ up = .inf) →
        r'.limits.lower.find j.name = some [lo] ∧ r'.limits.upper.find j.name = some [up] ∧
        r'.limits.torque.find j.name = some [ef] ∧ r'.limits.velocity.find j.name = some [ve] := by
  obtain ⟨n, SP⟩ := S.spec
  obtain ⟨es, E⟩ := SP.edges
  have hjes : ∀ e ∈ es, e.j ∈ r.mb.joints.tail := fun e h => by rw [E.joints]; exact List.mem_map_of_mem h
  have hXes : ∀ e ∈ es, e.X ∈ r.mb.Xt.tail := by
    intro e h
    obtain ⟨t, ht⟩ := List.mem_iff_getElem?.1 h
    obtain ⟨p, bp, bc, -, -, -, -, -, -, h7, -⟩ := E.links.edge t e ht
    refine List.mem_of_getElem? (i := t) ?_
    rw [List.getElem?_tail]
    exact h7
  obtain ⟨yl, hyl⟩ := exists_forall₂ (R := fun (e : Edge K) (p : YJoint K × JLimits K) =>
      writeYJoint env r e.j = .ok p.1 ∧ p.1.name = some e.j.name ∧
      p.1.parent = some e.parent ∧ p.1.child = some e.child ∧
      (∀ (params : ParserParams) (fx : String → Bool), params.sphericalSuffix = "_spherical" → fx e.child = false →
        yamlEdge env params false fx ⟨e.j.name, e.parent, e.child, p.1⟩ = .ok (e, p.2)) ∧
      (∀ lo up ef ve : Lim K, e.j.dof = 1 → r.limits.lower.find e.j.name = some [lo] →
        r.limits.upper.find e.j.name = some [up] → r.limits.torque.find e.j.name = some [ef] →
        r.limits.velocity.find e.j.name = some [ve] → ¬ (lo = .ninf ∧ up = .inf) → p.2 = ⟨[lo], [up], [ef], [ve]⟩)) es (by
    intro e h
    obtain ⟨h1, h2, h3⟩ := hj _ (hjes e h)
    obtain ⟨y, l, h⟩ := yamlEdge_write he h1 h2 h3 (hX _ (hXes e h)) (E.info e h)
    exact ⟨(y, l), h⟩)
  obtain ⟨s, hs, A⟩ := assemble_ok (bs := r.mb.bodies) (es := es) SP.bnames E.jnodup E.known
  obtain ⟨b0, hb0'⟩ : ∃ b, r.mb.bodies[0]? = some b :=
    ⟨_, List.getElem?_eq_getElem (by have : r.mb.bodies.length = n := SP.same.b; have := SP.pos; omega)⟩
  have hmake := E.remake SP A hb0'
  let ys := yl.map Prod.fst
  let rs : List (REdge K) := es.zip (yl.map Prod.snd)
  have hlen := hyl.length_eq
  have hrs1 : rs.map Prod.fst = es := by
    show (es.zip _).map Prod.fst = es
    rw [List.map_fst_zip (by rw [List.length_map]; omega)]
  let doc : YRobot K := ⟨some r.name, some false, some (r.mb.bodies.map (writeYLink env)), some ys⟩
  let params : ParserParams := { fixed := fixed }
  let lim : Limits K := rs.foldl (fun lim e => lim.set e.1.j.name e.2) ⟨[], [], [], []⟩
  have hdoc : toYAML env r = .ok doc := by
    unfold toYAML
    rw [E.writeJoints SP (xs := ys) ?_]
    · rfl
    · rw [List.forall₂_map_right_iff]
      exact hyl.imp (fun e p h => h.1)
  have hkept : ∀ l : NLink K, l.kept params = true := fun l => rfl
  have hkl : keptLinks params 1 (r.mb.bodies.map (writeYLink env)) =
      r.mb.bodies.map (fun b => ⟨b.name, (writeYLink env b).inertial⟩) := by
    unfold keptLinks
    rw [nameLinks_write]
    exact List.filter_eq_self.2 (fun l _ => hkept l)
  have hgone : ∀ m, goneY params (r.mb.bodies.map (writeYLink env)) m = false := by
    intro m
    unfold goneY
    rw [List.any_eq_false]
    intro l _
    rw [hkept l]; simp
  have hfix : ∀ m, fixedY params (r.mb.bodies.map (writeYLink env)) m = false := by
    intro m
    unfold fixedY
    rw [List.any_eq_false]
    intro l _
    simp [params]
  have hparse : parseYAML env (some doc) params = .ok (r.name, b0.name, (s, lim)) := by
    rw [parseYAML_iff]
    refine ⟨rfl, _, false, ys, rfl, rfl, rfl, ?_, r.mb.bodies, rs, ?_, ?_, ?_, rfl⟩
    · rw [hkl]
      have : params.baseLink = "" := rfl
      rw [this, if_neg (by simp)]
      cases hbs : r.mb.bodies with
      | nil => rw [hbs] at hb0'; cases hb0'
      | cons b l =>
        rw [hbs] at hb0'
        obtain rfl : b = b0 := by simpa using hb0'
        unfold firstNamed
        rw [List.map_cons, List.foldl_cons]
        simp only [if_true]
        have : ∀ (m : List (NLink K)), m.foldl (fun c l => if c = "" then l.name else c) b.name = b.name := by
          intro m
          induction m with
          | nil => rfl
          | cons x m ih => rw [List.foldl_cons, if_neg (hb0 b (by rw [hbs]; rfl)), ih]
        exact (this _).symm
    · rw [hkl, List.forall₂_map_left_iff, List.forall₂_same]
      intro b hbm
      exact yamlBody_write he rfl (hb b hbm)
    · unfold readJointsY
      rw [List.filter_eq_self.2 (by intro j _; rw [hgone, hgone]; rfl)]
      exact nameJoints_write (hyl.imp (fun e p h => ⟨h.2.1, h.2.2.1, h.2.2.2.1, h.2.2.2.2.1 _ _ rfl (hfix _)⟩)) _ _
    · rw [hrs1]; exact hs
  refine ⟨doc, ⟨r.name, r.mb, r.mbc, s.1, s.2, lim⟩, hdoc, ?_, rfl, rfl, rfl, ?_⟩
  · unfold fromYAML
    rw [show ({ fixed := fixed } : ParserParams) = params from rfl, hparse, Res.bind_ok]
    exact finish_of_mb S.made hmake
  · intro j hjm lo up ef ve hd h1 h2 h3 h4 hne
    rw [E.joints] at hjm
    obtain ⟨e, hem, rfl⟩ := List.mem_map.1 hjm
    obtain ⟨p, hp, hmem⟩ := forall₂_zip hyl hem
    have hl := hp.2.2.2.2.2 lo up ef ve hd h1 h2 h3 h4 hne
    have := limits_find rs (by
      rw [show rs.map (fun e => e.1.j.name) = (rs.map Prod.fst).map (fun e => e.j.name) by rw [List.map_map]; rfl, hrs1]
      exact E.jnodup) ⟨[], [], [], []⟩ (e, p.2) hmem
    rw [hl] at this
    exact this

end RBDyn
