import Verif.Model.Coriolis
import Verif.Lemmas.JacCols

/-! The Coriolis matrix. -/

namespace RBDyn
variable {K : Type} [Scalar K] {mb : MultiBody K}
open scoped Mat3

/-- Rotational inertia at the centre of mass `p`. -/
def RBInertia.atCom (I : RBInertia K) (p : Vec3 K) : Mat3 K := I.I.toMat - Mat3.crossMat (I.m • p) * (Mat3.crossMat p).tr

/-- Rotational inertia at the centre of mass with the orientation of the world. -/
def RBInertia.world (I : RBInertia K) (W : PTransform K) (p : Vec3 K) : Mat3 K := W.E.tr * (I.atCom p * W.E)

/-- Entry of the Coriolis matrix of a body as a function of the columns. -/
def corForm (W : PTransform K) (w : Vec3 K) (I : RBInertia K) (p : Vec3 K) (u d v : MotionVec K) : K :=
  I.m * u.lin.dot d.lin + u.ang.dot (I.world W p *ᵥ d.ang + (Mat3.crossMat w * I.world W p) *ᵥ v.ang)

theorem corForm_zero_left (W : PTransform K) (w : Vec3 K) (I : RBInertia K) (p : Vec3 K) (d v : MotionVec K) :
    corForm W w I p 0 d v = 0 := by simp [corForm, Vec3.dot]

theorem corForm_zero_right (W : PTransform K) (w : Vec3 K) (I : RBInertia K) (p : Vec3 K) (u : MotionVec K) :
    corForm W w I p u 0 0 = 0 := by simp [corForm, Vec3.dot, Mat3.mulVec]

/-- The form as a linear function of the last two arguments. -/
def corHom (W : PTransform K) (w : Vec3 K) (I : RBInertia K) (p : Vec3 K) (u : MotionVec K) : MotionVec K × MotionVec K →ₗ[K] K where
  toFun x := corForm W w I p u x.1 x.2
  map_add' x y := by simp [corForm, Vec3.dot, Mat3.mulVec]; ring
  map_smul' s x := by simp [corForm, Vec3.dot, Mat3.mulVec]; ring

theorem corBlock_eq (W : PTransform K) (w : Vec3 K) (I : RBInertia K) (p : Vec3 K) {jac jacDot : List (MotionVec K)}
    (h : jacDot.length = jac.length) : corBlock W w I p jac jacDot =
      .ok ⟨jac.length, jac.length, fun k l => corForm W w I p (jac.getD k 0) (jacDot.getD l 0) (jac.getD l 0)⟩ := by
  unfold corBlock corForm RBInertia.world RBInertia.atCom
  simp only [if_pos h, Mat3.tr_tr, Mat3.mul_assoc']

/-- The equation of motion of a rigid body: the rate of change of momentum at the centre of mass does the same work as in body coordinates. -/
theorem corForm_newton {W : PTransform K} (hW : IsRigid W) (I : RBInertia K) (p : Vec3 K) (hp : I.h = I.m • p) (U V A : MotionVec K) :
    corForm W (W.E.tr *ᵥ V.ang) I p (pointVel W U p) (pointAcc W V A p) (pointVel W V p) =
      U.dot (I.mulMotion A + V.crossDual (I.mulMotion V)) := by
  have hW : IsRot W.E := hW
  unfold corForm pointVel pointAcc RBInertia.world
  simp only [Mat3.mul_mulVec, hW.mulVec_tr, Mat3.crossMat_mulVec, ← hW.tr.mulVec_cross, ← Mat3.mulVec_add, hW.tr.dot]
  obtain ⟨m, h, I⟩ := I
  change h = m • p at hp
  subst hp
  simp [RBInertia.atCom, RBInertia.mulMotion, MotionVec.crossDual, MotionVec.dot, Vec3.dot, Vec3.cross, Mat3.mulVec, Sym3.toMat, Mat3.tr]
  ring

/-- Kinetic energy: splitting into the motion of the centre of mass and the rotation. -/
theorem mass_form {W : PTransform K} (hW : IsRigid W) (I : RBInertia K) (p : Vec3 K) (hp : I.h = I.m • p) (U V : MotionVec K) :
    I.m * (pointVel W U p).lin.dot (pointVel W V p).lin + (pointVel W U p).ang.dot (I.world W p *ᵥ (pointVel W V p).ang) =
      U.dot (I.mulMotion V) := by
  have hW : IsRot W.E := hW
  unfold pointVel RBInertia.world
  simp only [Mat3.mul_mulVec, hW.mulVec_tr, hW.tr.dot]
  obtain ⟨m, h, I⟩ := I
  change h = m • p at hp
  subst hp
  simp [RBInertia.atCom, RBInertia.mulMotion, MotionVec.dot, Vec3.dot, Vec3.cross, Mat3.mulVec, Sym3.toMat, Mat3.tr]
  ring

/-- The centre of mass that the constructor uses is the right one, for bodies of positive mass and for bodies without first moment. -/
theorem Body.corCom_spec (b : Body K) (h : 0 < b.inertia.m ∨ b.inertia.h = 0) : b.inertia.h = b.inertia.m • b.corCom := by
  unfold Body.corCom
  split
  · rename_i h0
    have : b.inertia.m ≠ 0 := ne_of_gt h0
    rw [smul_smul, mul_one_div_cancel this, one_smul]
  · rename_i h0
    rw [h.resolve_left h0, smul_zero]

/-! ### The loops -/

/-- A `Coriolis` object in which the entries of the first `n` bodies are in place. -/
structure Cor.Until (mb : MultiBody K) (c : Cor K) (n : Nat) : Prop where
  jacs : c.jacs.length = n
  paths : c.paths.length = n
  jac : ∀ (k : Nat) (J : Jac K) (b : Body K), c.jacs[k]? = some J → mb.bodies[k]? = some b → J.Of mb k b.corCom
  path : ∀ (k : Nat) (J : Jac K) (P : List Blk), c.jacs[k]? = some J → c.paths[k]? = some P → J.compactPath mb = .ok P
  dof : ∀ (k : Nat) (J : Jac K), c.jacs[k]? = some J → J.dof ≤ c.res.rows
  square : c.res.cols = c.res.rows
  rows : c.mat.rows = mb.nrDof
  cols : c.mat.cols = mb.nrDof

/-- A `Coriolis` object that belongs to the robot. -/
def Cor.For (mb : MultiBody K) (c : Cor K) : Prop := c.Until mb mb.bodies.length

theorem Jac.Of.path_ne {J : Jac K} {N : Nat} {p : Vec3 K} (h : J.Of mb N p) : J.path ≠ [] := by
  obtain ⟨l, hl⟩ := pathUp_head (par := mb.par) N
  rw [h.path_eq, hl]; simp

theorem getElem?_snoc {α : Type} {l : List α} {x y : α} {k : Nat} (h : (l ++ [x])[k]? = some y) :
    l[k]? = some y ∨ k = l.length ∧ x = y := by
  rcases Nat.lt_or_ge k l.length with hk | hk
  · left; rwa [List.getElem?_append_left hk] at h
  · rw [List.getElem?_append_right hk] at h
    right
    obtain ⟨h1, h2⟩ := List.getElem?_eq_some_iff.1 h
    simp only [List.length_singleton] at h1
    refine ⟨by omega, ?_⟩
    have : k - l.length = 0 := by omega
    simp only [this, List.getElem_cons_zero] at h2
    exact h2

theorem Cor.mk'_for (wf : mb.WF) (hn : ∀ (i : Nat) (b : Body K), mb.bodies[i]? = some b → mb.sBodyIndexByName b.name = .ok (i : Int))
    (junk : Nat → MotionVec K) (junkM : Nat → Nat → K) : ∃ c, Cor.mk' junk junkM mb = .ok c ∧ c.For mb := by
  unfold Cor.mk'
  refine (foldlM_range_inv (Cor.mkStep junk junkM mb) (fun n c => c.Until mb n) mb.nrBodies
    ⟨[], [], ⟨mb.nrDof, mb.nrDof, junkM⟩, ⟨0, 0, junkM⟩⟩ ?_ ?_).elim ?_
  · exact ⟨rfl, rfl, by simp, by simp, by simp, rfl, rfl, rfl⟩
  · intro i c hi h
    have hi : i < mb.bodies.length := hi
    have hb : mb.bodies[i]? = some mb.bodies[i] := List.getElem?_eq_getElem hi
    obtain ⟨J, e, hJ⟩ := Jac.mk'_of wf junk (hn i _ hb) hi mb.bodies[i].corCom
    obtain ⟨P, eP, -⟩ := J.compactPath_eq wf hJ.path hJ.path_ne
    have hle : ∀ (r : DMat K), r = (if c.res.rows < J.dof then ⟨J.dof, J.dof, junkM⟩ else c.res) →
        J.dof ≤ r.rows ∧ c.res.rows ≤ r.rows ∧ r.cols = r.rows := by
      intro r hr
      subst hr
      split
      · exact ⟨le_rfl, by dsimp only; omega, rfl⟩
      · exact ⟨by omega, le_rfl, h.square⟩
    refine ⟨⟨c.jacs ++ [J], c.paths ++ [P], c.mat, if c.res.rows < J.dof then ⟨J.dof, J.dof, junkM⟩ else c.res⟩, ?_, ?_⟩
    · simp only [Cor.mkStep, rd_ok hi, Res.bind_ok, e, eP, Res.pure_eq]
    · obtain ⟨h1, h2, h3⟩ := hle _ rfl
      refine ⟨by simp [h.jacs], by simp [h.paths], ?_, ?_, ?_, h3, h.rows, h.cols⟩
      · intro k J' b hJ' hb'
        rcases getElem?_snoc hJ' with hk | ⟨rfl, rfl⟩
        · exact h.jac k J' b hk hb'
        · rw [h.jacs, hb] at hb'
          cases hb'
          rw [h.jacs]
          exact hJ
      · intro k J' P' hJ' hP'
        rcases getElem?_snoc hJ' with hk | ⟨rfl, rfl⟩
        · rcases getElem?_snoc hP' with hk' | ⟨rfl, rfl⟩
          · exact h.path k J' P' hk hk'
          · rw [h.paths, List.getElem?_eq_none (by rw [h.jacs])] at hk
            cases hk
        · rcases getElem?_snoc hP' with hk' | ⟨_, rfl⟩
          · rw [h.jacs, List.getElem?_eq_none (by rw [h.paths])] at hk'
            cases hk'
          · exact eP
      · intro k J' hJ'
        rcases getElem?_snoc hJ' with hk | ⟨rfl, rfl⟩
        · exact (h.dof k J' hk).trans h2
        · exact h1
  · rintro c ⟨e, h⟩
    exact ⟨c, e, h⟩

/-- The centre of mass of body `k`. -/
def MultiBody.corComAt (mb : MultiBody K) (k : Nat) : Vec3 K := ((mb.bodies[k]?).map Body.corCom).getD 0

/-- Entry of the Coriolis matrix. -/
def MultiBody.corAt (mb : MultiBody K) (q alpha : List (List K)) (n i a j b : Nat) : K :=
  ∑ k ∈ Finset.range n, corForm (mb.posAt q k) (mb.velWAt q alpha k).ang (mb.inertiaAt k) (mb.corComAt k)
    (mb.wcol q k (mb.corComAt k) i a) (mb.wdot q alpha k (mb.corComAt k) j b) (mb.wcol q k (mb.corComAt k) j b)

theorem Cor.coriolis_eq (wf : mb.WF) {mbc : MBC K} (hv : mbc.VelReady mb) {c : Cor K} (hc : c.For mb) :
    ∃ c', c.coriolis mb mbc = .ok c' ∧ c'.For mb ∧ ∀ i a j b, i < mb.bodies.length → j < mb.bodies.length → a < mb.dofAt i → b < mb.dofAt j →
      c'.mat.get (mb.dofPosAt i + a) (mb.dofPosAt j + b) = mb.corAt mbc.q mbc.alpha mb.bodies.length i a j b := by
  unfold Cor.coriolis
  refine (foldlM_range_inv (Cor.step mb mbc) (fun n c' => c'.For mb ∧
    ∀ i a j b, i < mb.bodies.length → j < mb.bodies.length → a < mb.dofAt i → b < mb.dofAt j →
      c'.mat.get (mb.dofPosAt i + a) (mb.dofPosAt j + b) = mb.corAt mbc.q mbc.alpha n i a j b) mb.nrBodies
    { c with mat := c.mat.setZero } ?_ ?_).elim ?_
  · exact ⟨⟨hc.jacs, hc.paths, hc.jac, hc.path, hc.dof, hc.square, hc.rows, hc.cols⟩, fun i a j b _ _ _ _ => by
      simp [MultiBody.corAt, DMat.setZero]⟩
  · rintro k c hk ⟨h, hg⟩
    have hk : k < mb.bodies.length := hk
    have hkj : k < c.jacs.length := by rw [h.jacs]; exact hk
    have hkp : k < c.paths.length := by rw [h.paths]; exact hk
    have hb : mb.bodies[k]? = some mb.bodies[k] := List.getElem?_eq_getElem hk
    have hJ := h.jac k _ _ (List.getElem?_eq_getElem hkj) hb
    have hP := h.path k _ _ (List.getElem?_eq_getElem hkj) (List.getElem?_eq_getElem hkp)
    have hd := h.dof k _ (List.getElem?_eq_getElem hkj)
    set J := c.jacs[k] with hJd
    set P := c.paths[k] with hPd
    set p := mb.bodies[k].corCom with hpd
    have hp : mb.corComAt k = p := by rw [MultiBody.corComAt, hb]; rfl
    have hI : mb.inertiaAt k = mb.bodies[k].inertia := by simp [MultiBody.inertiaAt, hb]
    set L : Nat → MotionVec K →ₗ[K] MotionVec K :=
      fun i => (PTransform.ofTrans (PTransform.ofTrans p * mb.posAt mbc.q k).r * (mb.posAt mbc.q i).inv).motionHom with hL
    set L' := mb.dotHom mbc.q mbc.alpha k p with hL'
    have e1 : J.jacobian mb mbc = .ok { J with jac := mb.homCols J.path L } := by
      rw [hJ.jacobian_eq wf hv.toPosReady, jacCols_eq_homCols hJ]
    have hJ1 := hJ.with_jac (jac := mb.homCols J.path L) (homCols_length _ _)
    have e2 := hJ1.jacobianDot_eq wf hv
    dsimp only at e2
    set J2 : Jac K := { J with jac := mb.homCols J.path L, jacDot := mb.homCols J.path L' } with hJ2
    have hof : J2.Of mb k p := hJ1.with_jacDot (homCols_length _ _)
    have hdof : J2.dof = (J.path.map mb.dofAt).sum := homCols_length _ _
    have hdJ : J.dof = J2.dof := by rw [hdof]; exact hJ.jac
    have hlen : J2.jacDot.length = J2.jac.length := by rw [homCols_length, homCols_length]
    set F := corForm (mb.posAt mbc.q k) (mb.velWAt mbc.q mbc.alpha k).ang mb.bodies[k].inertia p with hF
    obtain ⟨P', eP, -, hexp⟩ := J2.blocks_eq wf hof.path hof.path_ne
    have hPP : P' = P := by
      have : J2.compactPath mb = J.compactPath mb := rfl
      rw [this, hP] at eP
      exact (Except.ok.inj eP).symm
    subst hPP
    set m : DMat K := ⟨J2.jac.length, J2.jac.length, fun k l => F (J2.jac.getD k 0) (J2.jacDot.getD l 0) (J2.jac.getD l 0)⟩ with hm
    have e3 : corBlock (mb.posAt mbc.q k) (mb.velWAt mbc.q mbc.alpha k).ang mb.bodies[k].inertia J2.point.r J2.jac J2.jacDot = .ok m := by
      rw [corBlock_eq _ _ _ _ hlen, hof.point]; rfl
    set res : DMat K := ⟨c.res.rows, c.res.cols, fun i j =>
      if 0 ≤ i ∧ i < 0 + J2.dof ∧ 0 ≤ j ∧ j < 0 + J2.dof then m.get (i - 0) (j - 0) else c.res.get i j⟩ with hres
    have e4 : c.res.setBlock 0 0 J2.dof J2.dof m = .ok res := by
      unfold DMat.setBlock
      rw [if_pos ⟨by omega, by rw [h.square]; omega, rfl, rfl⟩]
    have e5 : res.block 0 0 J2.dof J2.dof = .ok ⟨J2.dof, J2.dof, fun i j => res.get (0 + i) (0 + j)⟩ := by
      unfold DMat.block
      rw [if_pos ⟨by show 0 + J2.dof ≤ c.res.rows; omega, by show 0 + J2.dof ≤ c.res.cols; rw [h.square]; omega⟩]
    have e6 := hexp ⟨J2.dof, J2.dof, fun i j => res.get (0 + i) (0 + j)⟩ c.mat (by rw [h.cols]) (by rw [h.rows]) (by rw [hdof]) (by rw [hdof])
    rw [J2.expandAdd_eq wf hof.path (by rw [h.cols]) (by rw [h.rows]) (by rw [hdof]) (by rw [hdof])] at e6
    refine ⟨⟨c.jacs.set k J2, c.paths, ⟨c.mat.rows, c.mat.cols, fun r cc => c.mat.get r cc + scat (mb.dofIdx J2.path)
        (fun k => scat (mb.dofIdx J2.path) (fun j => res.get (0 + k) (0 + j)) cc) r⟩, res⟩, ?_, ⟨by rw [List.length_set]; exact h.jacs, h.paths, ?_, ?_, ?_, h.square, h.rows, h.cols⟩, ?_⟩
    · simp only [Cor.step, rd_ok hkj, Res.bind_ok, e1, e2, hv.rd_pos hk, hv.rd_vW hk, rd_ok hk, e3, e4, e5, rd_ok hkp, e6, wr_ok hkj,
        Res.pure_eq, ← hJd, ← hJ2, ← hPd]
    · intro k' J' b hJ' hb'
      by_cases hkk : k = k'
      · subst hkk
        rw [List.getElem?_set_self hkj] at hJ'
        cases hJ'
        rw [hb] at hb'
        cases hb'
        exact hof
      · rw [List.getElem?_set_ne hkk] at hJ'
        exact h.jac k' J' b hJ' hb'
    · intro k' J' P'' hJ' hP'
      by_cases hkk : k = k'
      · subst hkk
        rw [List.getElem?_set_self hkj] at hJ'
        cases hJ'
        rw [List.getElem?_eq_getElem hkp] at hP'
        cases hP'
        exact eP
      · rw [List.getElem?_set_ne hkk] at hJ'
        exact h.path k' J' P'' hJ' hP'
    · intro k' J' hJ'
      by_cases hkk : k = k'
      · subst hkk
        rw [List.getElem?_set_self hkj] at hJ'
        cases hJ'
        show J2.dof ≤ c.res.rows
        omega
      · rw [List.getElem?_set_ne hkk] at hJ'
        exact h.dof k' J' hJ'
    · intro i a j b hi hj ha hb
      dsimp only
      rw [hg i a j b hi hj ha hb]
      unfold MultiBody.corAt
      rw [Finset.sum_range_succ, hp, hI]
      congr 1
      have hidx : (mb.dofIdx J2.path).length = J2.dof := by rw [mb.dofIdx_length, hdof]
      have h1 : ∀ x, x < (mb.dofIdx J2.path).length → scat (mb.dofIdx J2.path) (fun y => res.get (0 + x) (0 + y)) (mb.dofPosAt j + b) =
          F ((mb.homCols J2.path L).getD x 0) (mb.pathCol L' k j b) (mb.pathCol L k j b) := by
        intro x hx
        rw [← scat_homCols₂ wf hof L' L (F ((mb.homCols J2.path L).getD x 0)) (corForm_zero_right ..) hj hb]
        refine scat_congr (fun y hy => ?_) _
        rw [hidx] at hx hy
        simp only [hres]
        rw [if_pos ⟨by omega, by omega, by omega, by omega⟩]
        simp only [Nat.zero_add, Nat.sub_zero]
        rfl
      rw [scat_congr h1, scat_homCols wf hof L (fun u => F u (mb.pathCol L' k j b) (mb.pathCol L k j b)) (corForm_zero_left ..) hi ha]
      rfl
  · rintro c' ⟨e, h, hg⟩
    exact ⟨c', e, h, hg⟩

end RBDyn
