import Verif.Props.Mirror
import Verif.Props.Integration

/-! Property C89, continued: numerical integration and mirror images. -/

namespace RBDyn
open scoped Mat3

/-- The mirror image of a quaternion. -/
def Quat.mir {K : Type} [Scalar K] (q : Quat K) : Quat K := ⟨q.w, -q.x, q.y, -q.z⟩

section
variable {K : Type} [Scalar K]

theorem Quat.mir_mul (a b : Quat K) : (a.mul b).mir = a.mir.mul b.mir := by
  ext <;> simp [Quat.mir, Quat.mul] <;> ring

theorem Quat.mir_toRot (q : Quat K) : q.mir.toRot = q.toRot.mir := by
  ext <;> simp [Quat.mir, Quat.toRot, Mat3.mir] <;> ring

theorem Quat.mir_normSq (q : Quat K) : q.mir.normSq = q.normSq := by simp [Quat.mir, Quat.normSq]

theorem Vec3.mirAx_add (v w : Vec3 K) : (v + w).mirAx = v.mirAx + w.mirAx := by ext <;> simp [Vec3.mirAx] <;> ring
theorem Vec3.mirAx_sub (v w : Vec3 K) : (v - w).mirAx = v.mirAx - w.mirAx := by ext <;> simp [Vec3.mirAx] <;> ring
theorem Vec3.mirAx_smul (s : K) (v : Vec3 K) : (s • v).mirAx = s • v.mirAx := by ext <;> simp [Vec3.mirAx]
theorem Vec3.mirAx_cross (v w : Vec3 K) : v.mirAx.cross w.mirAx = (v.cross w).mirAx := by ext <;> simp [Vec3.mirAx] <;> ring
theorem Vec3.mirAx_normSq (v : Vec3 K) : v.mirAx.normSq = v.normSq := by simp [Vec3.mirAx, Vec3.normSq, Vec3.dot]
theorem Vec3.mir_normSq (v : Vec3 K) : v.mir.normSq = v.normSq := by simp [Vec3.mir, Vec3.normSq, Vec3.dot]

theorem fourthDerivativeFree_mir (v w dv dw : Vec3 K) :
    fourthDerivativeFree v.mir w.mirAx dv.mir dw.mirAx = (fourthDerivativeFree v w dv dw).mir := by
  ext <;> simp [fourthDerivativeFree, Vec3.mir, Vec3.mirAx, Vec3.normSq, Vec3.dot] <;> ring

end

theorem magnusExpansion_mir (w wD : Vec3 ℝ) (step relEps absEps : ℝ) :
    magnusExpansion w.mirAx wD.mirAx step relEps absEps =
      ((magnusExpansion w wD step relEps absEps).1.mirAx, (magnusExpansion w wD step relEps absEps).2) := by
  unfold magnusExpansion
  simp only [← Vec3.mirAx_smul, ← Vec3.mirAx_add, Vec3.mirAx_cross, Vec3.mirAx_normSq, ← Vec3.mirAx_sub]
  generalize (min _ (absEps * absEps) : ℝ) = e2
  split
  · rfl
  split
  · rfl
  split <;> rfl

theorem SO3Integration_mir (qi : Quat ℝ) (wi wD : Vec3 ℝ) (step relEps absEps : ℝ) (b : Bool) :
    SO3Integration qi.mir wi.mirAx wD.mirAx step relEps absEps b =
      ((SO3Integration qi wi wD step relEps absEps b).1.mir, (SO3Integration qi wi wD step relEps absEps b).2) := by
  unfold SO3Integration
  simp only [magnusExpansion_mir]
  split
  · rfl
  · simp only [Quat.mir_mul, ← Vec3.mirAx_smul, Vec3.mirAx_normSq]
    congr 2
    ext <;> simp [Quat.mir, Vec3.mirAx]

theorem sphericalJointIntegration_mir (fuel : Nat) (qi : Quat ℝ) (wi wD : Vec3 ℝ) (step prec : ℝ) :
    sphericalJointIntegration fuel qi.mir wi.mirAx wD.mirAx step prec = (sphericalJointIntegration fuel qi wi wD step prec).map Quat.mir := by
  induction fuel generalizing qi wi step with
  | zero => rfl
  | succ fuel ih =>
    unfold sphericalJointIntegration
    simp only [SO3Integration_mir]
    split
    · rfl
    · rw [ih]
      cases sphericalJointIntegration fuel qi wi wD (step / 2) prec with
      | error e => rfl
      | ok q =>
        show sphericalJointIntegration fuel q.mir _ _ _ _ = _
        rw [← Vec3.mirAx_smul, ← Vec3.mirAx_add, ih]
        rfl

/-- The mirror image of a pose given by a quaternion and a translation. -/
noncomputable def qxMir (s : Quat ℝ × Vec3 ℝ) : Quat ℝ × Vec3 ℝ := (s.1.mir, s.2.mir)

theorem freeSubStep_mir (wD vD : Vec3 ℝ) (h : ℝ) (q : Quat ℝ) (x v w : Vec3 ℝ) (n : Nat) :
    freeSubStep wD.mirAx vD.mir h (q.mir, x.mir, v.mir, w.mirAx) n =
      ((freeSubStep wD vD h (q, x, v, w) n).1.mir, (freeSubStep wD vD h (q, x, v, w) n).2.1.mir,
        (freeSubStep wD vD h (q, x, v, w) n).2.2.1.mir, (freeSubStep wD vD h (q, x, v, w) n).2.2.2.mirAx) := by
  simp only [freeSubStep, SO3Integration_mir, Quat.mir_toRot, ← Vec3.mir_smul, ← Vec3.mir_add, ← Mat3.mir_mulVec, ← Vec3.mirAx_smul,
    ← Vec3.mirAx_add]

theorem freeSubSteps_mir (wD vD : Vec3 ℝ) (h : ℝ) (l : List Nat) (q : Quat ℝ) (x v w : Vec3 ℝ) :
    l.foldl (freeSubStep wD.mirAx vD.mir h) (q.mir, x.mir, v.mir, w.mirAx) =
      ((l.foldl (freeSubStep wD vD h) (q, x, v, w)).1.mir, (l.foldl (freeSubStep wD vD h) (q, x, v, w)).2.1.mir,
        (l.foldl (freeSubStep wD vD h) (q, x, v, w)).2.2.1.mir, (l.foldl (freeSubStep wD vD h) (q, x, v, w)).2.2.2.mirAx) := by
  induction l generalizing q x v w with
  | nil => rfl
  | cons n l ih =>
    rw [List.foldl_cons, List.foldl_cons, freeSubStep_mir, ih]

theorem freeSteps_mir (qi : Quat ℝ) (xi : Vec3 ℝ) (qf : Quat ℝ) (wi vi wD vD : Vec3 ℝ) (step prec : ℝ) :
    freeJointIntegration_ qi.mir xi.mir qf.mir wi.mirAx vi.mir wD.mirAx vD.mir step prec =
      (freeJointIntegration_ qi xi qf wi vi wD vD step prec).map qxMir := by
  unfold freeJointIntegration_
  simp only [fourthDerivativeSquaredNormFree, ← Vec3.mir_smul, ← Vec3.mir_add, ← Vec3.mirAx_smul, ← Vec3.mirAx_add, fourthDerivativeFree_mir,
    Vec3.mir_normSq]
  cases subSteps _ step prec with
  | error e => rfl
  | ok n =>
    simp only [Res.bind_ok, Quat.mir_toRot, ← Mat3.mir_mulVec, ← Vec3.mir_smul, ← Vec3.mir_add, freeSubSteps_mir, SO3Integration_mir,
      Except.map, Res.pure_eq, qxMir]

theorem freeJointIntegration_mir (fuel : Nat) (qi : Quat ℝ) (xi wi vi wD vD : Vec3 ℝ) (step prec : ℝ) :
    freeJointIntegration fuel qi.mir xi.mir wi.mirAx vi.mir wD.mirAx vD.mir step prec =
      (freeJointIntegration fuel qi xi wi vi wD vD step prec).map qxMir := by
  induction fuel generalizing qi xi wi vi step with
  | zero => rfl
  | succ fuel ih =>
    unfold freeJointIntegration
    simp only [SO3Integration_mir]
    split
    · exact freeSteps_mir ..
    · rw [ih]
      cases freeJointIntegration fuel qi xi wi vi wD vD (step / 2) prec with
      | error e => rfl
      | ok q =>
        show freeJointIntegration fuel q.1.mir q.2.mir _ _ _ _ _ _ = _
        rw [← Vec3.mirAx_smul, ← Vec3.mirAx_add, ← Vec3.mir_smul, ← Vec3.mir_add, ih]
        rfl

/-- The mirror image of a vector of the plane. -/
def mir2 (v : ℝ × ℝ) : ℝ × ℝ := (v.1, -v.2)

theorem mir2_add (v w : ℝ × ℝ) : mir2 (v + w) = mir2 v + mir2 w := by ext <;> simp [mir2]; ring
theorem mir2_smul (s : ℝ) (v : ℝ × ℝ) : mir2 (s • v) = s • mir2 v := by ext <;> simp [mir2]
theorem rot2_mir (q : ℝ) (v : ℝ × ℝ) : rot2 (-q) (mir2 v) = mir2 (rot2 q v) := by
  ext <;> simp [rot2, mir2]; ring
theorem rot2T_mir (q : ℝ) (v : ℝ × ℝ) : rot2T (-q) (mir2 v) = mir2 (rot2T q v) := by
  ext <;> simp [rot2T, mir2]; ring

theorem fourthDerivativePlanar_mir (v : ℝ × ℝ) (w : ℝ) (dv : ℝ × ℝ) (dw : ℝ) :
    fourthDerivativeSquaredNormPlanar (mir2 v) (-w) (mir2 dv) (-dw) = fourthDerivativeSquaredNormPlanar v w dv dw := by
  simp only [fourthDerivativeSquaredNormPlanar, fourthDerivativePlanar, mir2]
  ring

theorem planarSubStep_mir (wD : ℝ) (vD : ℝ × ℝ) (h q : ℝ) (x v : ℝ × ℝ) (w : ℝ) (n : Nat) :
    planarSubStep (-wD) (mir2 vD) h (-q, mir2 x, mir2 v, -w) n =
      (-(planarSubStep wD vD h (q, x, v, w) n).1, mir2 (planarSubStep wD vD h (q, x, v, w) n).2.1,
        mir2 (planarSubStep wD vD h (q, x, v, w) n).2.2.1, -(planarSubStep wD vD h (q, x, v, w) n).2.2.2) := by
  have e1 : -q + -w * (h / 2) + -wD * (h / 2 * (h / 2) / 2) = -(q + w * (h / 2) + wD * (h / 2 * (h / 2) / 2)) := by ring
  have e2 : -q + -w * h + -wD * (h * (h / 2)) = -(q + w * h + wD * (h * (h / 2))) := by ring
  have e3 : -w + h * -wD = -(w + h * wD) := by ring
  simp only [planarSubStep, e1, e2, e3, ← mir2_smul, ← mir2_add, rot2_mir]

theorem planarSubSteps_mir (wD : ℝ) (vD : ℝ × ℝ) (h : ℝ) (l : List Nat) (q : ℝ) (x v : ℝ × ℝ) (w : ℝ) :
    l.foldl (planarSubStep (-wD) (mir2 vD) h) (-q, mir2 x, mir2 v, -w) =
      (-(l.foldl (planarSubStep wD vD h) (q, x, v, w)).1, mir2 (l.foldl (planarSubStep wD vD h) (q, x, v, w)).2.1,
        mir2 (l.foldl (planarSubStep wD vD h) (q, x, v, w)).2.2.1, -(l.foldl (planarSubStep wD vD h) (q, x, v, w)).2.2.2) := by
  induction l generalizing q x v w with
  | nil => rfl
  | cons n l ih => rw [List.foldl_cons, List.foldl_cons, planarSubStep_mir, ih]

theorem planarJointIntegration_mir (qi : ℝ) (xi : ℝ × ℝ) (wi : ℝ) (vi : ℝ × ℝ) (wD : ℝ) (vD : ℝ × ℝ) (step prec : ℝ) :
    planarJointIntegration (-qi) (mir2 xi) (-wi) (mir2 vi) (-wD) (mir2 vD) step prec =
      (planarJointIntegration qi xi wi vi wD vD step prec).map fun s => (-s.1, mir2 s.2) := by
  have e0 : -wi + step * -wD = -(wi + step * wD) := by ring
  unfold planarJointIntegration
  simp only [e0, ← mir2_smul, ← mir2_add, fourthDerivativePlanar_mir]
  cases subSteps _ step prec with
  | error e => rfl
  | ok n =>
    simp only [Res.bind_ok, rot2_mir, planarSubSteps_mir, Except.map, Res.pure_eq]
    generalize (List.range (n - 1).toNat).foldl _ (qi, _) = s
    obtain ⟨q, x, v, w⟩ := s
    generalize step / (n : ℝ) = h
    have e1 : -q + -w * (h / 2) + -wD * (h / 2 * (h / 2) / 2) = -(q + w * (h / 2) + wD * (h / 2 * (h / 2) / 2)) := by ring
    have e2 : -q + (-w * h + -wD * (h * (h / 2))) = -(q + (w * h + wD * (h * (h / 2)))) := by ring
    simp only [e1, e2, ← mir2_smul, ← mir2_add, rot2_mir, rot2T_mir]

/-- C89: the position of a joint after the mirror image of a step is the mirror image of its position after the step. -/
theorem C89_joint_integration (fuel : Nat) {t : JointType} {alpha alphaD q : List ℝ} (step prec : ℝ) (hq : q.length = Joint.nParams t)
    (ha : alpha.length = Joint.nDof t) (hd : alphaD.length = Joint.nDof t) :
    jointIntegration fuel t (List.zipWith (fun u y => 1 * (u * y)) (dofSign t) alpha) (List.zipWith (fun u y => 1 * (u * y)) (dofSign t) alphaD) step
        (List.zipWith (fun u y => 1 * (u * y)) (paramSign t) q) prec =
      (jointIntegration fuel t alpha alphaD step q prec).map (List.zipWith (fun u y => 1 * (u * y)) (paramSign t)) := by
  cases t <;> simp only [Joint.nParams, Joint.nDof] at hq ha hd
  · match q, alpha, alphaD, hq, ha, hd with
    | [a], [b], [c], _, _, _ => simp [jointIntegration, paramSign, dofSign, rd, wr, Except.map]; ring
  · match q, alpha, alphaD, hq, ha, hd with
    | [a], [b], [c], _, _, _ => simp [jointIntegration, paramSign, dofSign, rd, wr, Except.map]
  · match q, alpha, alphaD, hq, ha, hd with
    | [a, b, c, d], [w0, w1, w2], [a0, a1, a2], _, _, _ =>
      have h := sphericalJointIntegration_mir fuel ⟨a, b, c, d⟩ ⟨w0, w1, w2⟩ ⟨a0, a1, a2⟩ step prec
      simp only [Quat.mir, Vec3.mirAx] at h
      simp only [jointIntegration, paramSign, dofSign, rd, List.zipWith_cons_cons, List.getElem?_cons_zero, List.getElem?_cons_succ, one_mul,
        neg_one_mul, Res.bind_ok, h]
      cases sphericalJointIntegration fuel ⟨a, b, c, d⟩ ⟨w0, w1, w2⟩ ⟨a0, a1, a2⟩ step prec with
      | error e => rfl
      | ok q =>
        simp only [Except.map, Res.bind_ok, Quat.mir_normSq]
        split <;> simp [wr, neg_div, Quat.mir]
  · match q, alpha, alphaD, hq, ha, hd with
    | [a, b, c], [w0, w1, w2], [a0, a1, a2], _, _, _ =>
      have h := planarJointIntegration_mir a (b, c) w0 (w1, w2) a0 (a1, a2) step prec
      simp only [mir2] at h
      simp only [jointIntegration, paramSign, dofSign, rd, List.zipWith_cons_cons, List.getElem?_cons_zero, List.getElem?_cons_succ, one_mul,
        neg_one_mul, Res.bind_ok, h]
      cases planarJointIntegration a (b, c) w0 (w1, w2) a0 (a1, a2) step prec with
      | error e => rfl
      | ok s => simp [wr, Except.map]
  · match q, alpha, alphaD, hq, ha, hd with
    | [a, a'], [b, b'], [c, c'], _, _, _ => simp [jointIntegration, paramSign, dofSign, rd, wr, Except.map]; ring
  · match q, alpha, alphaD, hq, ha, hd with
    | [a, b, c, d, x, y, z], [w0, w1, w2, v0, v1, v2], [a0, a1, a2, d0, d1, d2], _, _, _ =>
      have h := freeJointIntegration_mir fuel ⟨a, b, c, d⟩ ⟨x, y, z⟩ ⟨w0, w1, w2⟩ ⟨v0, v1, v2⟩ ⟨a0, a1, a2⟩ ⟨d0, d1, d2⟩ step prec
      simp only [Quat.mir, Vec3.mirAx, Vec3.mir] at h
      simp only [jointIntegration, paramSign, dofSign, rd, List.zipWith_cons_cons, List.getElem?_cons_zero, List.getElem?_cons_succ, one_mul,
        neg_one_mul, Res.bind_ok, h]
      cases freeJointIntegration fuel ⟨a, b, c, d⟩ ⟨x, y, z⟩ ⟨w0, w1, w2⟩ ⟨v0, v1, v2⟩ ⟨a0, a1, a2⟩ ⟨d0, d1, d2⟩ step prec with
      | error e => rfl
      | ok s =>
        have e : s.1.mir.normSq = s.1.normSq := Quat.mir_normSq s.1
        simp only [Except.map, Res.bind_ok, qxMir, e]
        simp [wr, Quat.mir, Vec3.mir, neg_div]
  · match q, hq with
    | [], _ => simp [jointIntegration, Except.map, Res.pure_eq]

theorem scaled_some {mb : MultiBody ℝ} {f : JointType → List ℝ} {v : List (List ℝ)} {i : Nat} {j : Joint ℝ} {x : List ℝ}
    (hj : mb.joints[i]? = some j) (hx : v[i]? = some x) :
    (mb.scaled f 1 v)[i]? = some (List.zipWith (fun u y => 1 * (u * y)) (f j.type) x) := by
  rw [MultiBody.scaled_get, hj, hx]
  rfl

theorem velStep_mir (U a b : List ℝ) (step : ℝ) :
    List.zipWith (fun u v => u + v * step) (List.zipWith (fun u y => 1 * (u * y)) U a) (List.zipWith (fun u y => 1 * (u * y)) U b) =
      List.zipWith (fun u y => 1 * (u * y)) U (List.zipWith (fun u v => u + v * step) a b) := by
  induction U generalizing a b with
  | nil => rfl
  | cons u U ih =>
    cases a with
    | nil => rfl
    | cons x a =>
      cases b with
      | nil => rfl
      | cons y b =>
        simp only [List.zipWith_cons_cons, ih]
        congr 1
        ring

/-- C89: numerical integration of the mirror image gives the mirror image of the positions and velocities. -/
theorem C89_integration {mb : MultiBody ℝ} (wf : mb.WF) {m m' : MBC ℝ} (h : InMirror mb m m') (hq : SizedQ mb m.q) (ha : SizedDof mb m.alpha)
    (hd : SizedDof mb m.alphaD) {step prec : ℝ} (hp : 0 < prec) (hs : 0 ≤ step) :
    ∃ N m₁ m₁', (∀ fuel, N ≤ fuel → integration fuel mb m step prec = .ok m₁ ∧ integration fuel mb.mirrored m' step prec = .ok m₁') ∧
      m₁'.q = mb.scaled paramSign 1 m₁.q ∧ m₁'.alpha = mb.scaled dofSign 1 m₁.alpha := by
  have hq' : SizedQ mb.mirrored m'.q := by
    rw [h.q]
    exact (scaled_sizes (fun j hj => paramSign_length (wf.built j hj)) hq).trans (MultiBody.mirrored_map _ (fun _ => rfl) _).symm
  have ha' : SizedDof mb.mirrored m'.alpha := h.alpha ▸ mirrored_sizedDof wf ha
  have hd' : SizedDof mb.mirrored m'.alphaD := h.alphaD ▸ mirrored_sizedDof wf hd
  obtain ⟨N, m₁, e1, -, s1, t1, -, k1⟩ := C41_integration wf.built hq ha hd hp (.inl hs)
  obtain ⟨N', m₁', e2, -, s2, t2, -, k2⟩ := C41_integration (mb.mirrored_wf wf).built hq' ha' hd' hp (.inl hs)
  have hl : mb.mirrored.joints.length = mb.joints.length := by simp [MultiBody.mirrored]
  have key : ∀ i, i < mb.joints.length → m₁'.q[i]? = (mb.scaled paramSign 1 m₁.q)[i]? ∧ m₁'.alpha[i]? = (mb.scaled dofSign 1 m₁.alpha)[i]? := by
    intro i hi
    obtain ⟨j, hj⟩ : ∃ j, mb.joints[i]? = some j := ⟨_, List.getElem?_eq_getElem hi⟩
    obtain ⟨x, hx⟩ : ∃ x, m.q[i]? = some x := ⟨_, List.getElem?_eq_getElem (by rw [hq.length]; exact hi)⟩
    obtain ⟨a, hal⟩ : ∃ a, m.alpha[i]? = some a := ⟨_, List.getElem?_eq_getElem (by rw [ha.length]; exact hi)⟩
    obtain ⟨b, hb⟩ : ∃ b, m.alphaD[i]? = some b := ⟨_, List.getElem?_eq_getElem (by rw [hd.length]; exact hi)⟩
    obtain ⟨ka, y, ky, kj⟩ := k1 i j x a b hj hx hal hb
    obtain ⟨ka', y', ky', kj'⟩ := k2 i j.mirrored _ _ _ (by rw [mb.mirrored_joint, hj]; rfl) (by rw [h.q]; exact scaled_some hj hx)
      (by rw [h.alpha]; exact scaled_some hj hal) (by rw [h.alphaD]; exact scaled_some hj hb)
    rw [ka', ky', scaled_some hj ka, scaled_some hj ky]
    refine ⟨?_, by rw [velStep_mir]⟩
    have hbj := wf.built j (List.mem_of_getElem? hj)
    have e := C89_joint_integration (max N N') (t := j.type) (alpha := a) (alphaD := b) (q := x) step prec
      ((hq.get hx hj).trans hbj.sizes.1) ((ha.get hal hj).trans hbj.sizes.2) ((hd.get hb hj).trans hbj.sizes.2)
    rw [kj _ (le_max_left ..)] at e
    have e' := kj' _ (le_max_right N N')
    exact congrArg some (Except.ok.inj (e'.symm.trans e))
  have ext : ∀ (u v : List (List ℝ)), u.length = mb.joints.length → v.length = mb.joints.length → (∀ i, i < mb.joints.length → u[i]? = v[i]?) → u = v := by
    intro u v hu hv h
    refine List.ext_getElem? fun i => ?_
    by_cases hi : i < mb.joints.length
    · exact h i hi
    · rw [List.getElem?_eq_none (by omega), List.getElem?_eq_none (by omega)]
  have hsl : ∀ (f : JointType → List ℝ) (v : List (List ℝ)), v.length = mb.joints.length → (mb.scaled f 1 v).length = mb.joints.length := by
    intro f v hv
    simp [MultiBody.scaled, hv]
  exact ⟨max N N', m₁, m₁', fun fuel hf => ⟨e1 _ (le_trans (le_max_left ..) hf), e2 _ (le_trans (le_max_right ..) hf)⟩,
    ext _ _ (by rw [s2.length, hl]) (hsl _ _ s1.length) fun i hi => (key i hi).1,
    ext _ _ (by rw [t2.length, hl]) (hsl _ _ t1.length) fun i hi => (key i hi).2⟩

/-- C89 for numerical integration applies to a mobile robot whose joints all move. -/
example : ∃ (mb : MultiBody ℝ) (mbc m₁ m₁' : MBC ℝ) (N : Nat), mb.joints.length = 4 ∧
    (∀ fuel, N ≤ fuel → integration fuel mb mbc 2 (1 / 10 ^ 10) = .ok m₁ ∧
      integration fuel mb.mirrored (mbc.mirrored mb) 2 (1 / 10 ^ 10) = .ok m₁') ∧
    m₁'.q = mb.scaled paramSign 1 m₁.q ∧ m₁'.alpha = mb.scaled dofSign 1 m₁.alpha := by
  obtain ⟨mb, mbc, wf, hv, hq, ha, hd, ht, e1, e2⟩ := Sample.real_mobile
  obtain ⟨N, m₁, m₁', h⟩ := C89_integration (step := 2) (prec := 1 / 10 ^ 10) wf (m' := mbc.mirrored mb) ⟨rfl, rfl, rfl, rfl, rfl, rfl⟩ hq ha hd
    (by positivity) (by norm_num)
  exact ⟨mb, mbc, m₁, m₁', N, by simpa using congrArg List.length ht, h⟩

end RBDyn
