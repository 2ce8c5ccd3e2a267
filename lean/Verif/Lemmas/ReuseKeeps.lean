import Verif.Lemmas.ReuseY

/-! A call changes the working memory of an object only. -/

namespace RBDyn
variable {K : Type} [Scalar K]
variable {α β γ δ : Type}
variable {mb : MultiBody K}

theorem Keeps.imp {P Q : α → Prop} {x : Res α} (h : Keeps P x) (hq : ∀ a, P a → Q a) : Keeps Q x := fun a e => hq a (h a e)

theorem writeCols_keeps {cols : List α} {cur n : Nat} {g : Nat → α → Res α} : Keeps (fun m => m.length = cols.length) (writeCols cols cur n g) :=
  Keeps.list (fun m => m.length = cols.length) rfl fun _ _ hs => .skip fun _ => .skip fun _ => Keeps.wr.imp fun _ h => h.trans hs

theorem fillCols_keeps {path : List Nat} {prep : Nat → Nat → Res (Nat → α → Res α)} {cols : List α} :
    Keeps (fun s : List α × Nat => s.1.length = cols.length) (fillCols mb path prep cols) :=
  Keeps.list (fun s : List α × Nat => s.1.length = cols.length) rfl fun _ _ hs =>
    .skip fun _ => .skip fun _ => .skip fun _ => writeCols_keeps.bind fun _ h => .pure (h.trans hs)

theorem jacobianFill_keeps {mbc : MBC K} {X : PTransform K} {path : List Nat} {sign : List K} {jac : List (MotionVec K)} :
    Keeps (fun c => c.length = jac.length) (jacobianFill mb mbc X path sign jac) :=
  fillCols_keeps.bind fun _ h => .pure h

/-- `r` is `J` with other values in the working memory. -/
structure Jac.Like (J r : Jac K) : Prop where
  path : r.path = J.path
  sign : r.sign = J.sign
  point : r.point = J.point
  body : r.bodyIndex = J.bodyIndex
  ref : r.refBodyIndex = J.refBodyIndex
  jac : r.jac.length = J.jac.length
  jacDot : r.jacDot.length = J.jacDot.length

namespace Jac.Like
variable {J r : Jac K}

theorem rfl' : J.Like J := ⟨rfl, rfl, rfl, rfl, rfl, rfl, rfl⟩

theorem trans {r' : Jac K} (h : J.Like r) (h' : r.Like r') : J.Like r' :=
  ⟨h'.path.trans h.path, h'.sign.trans h.sign, h'.point.trans h.point, h'.body.trans h.body, h'.ref.trans h.ref, h'.jac.trans h.jac,
    h'.jacDot.trans h.jacDot⟩

theorem withJac {c : List (MotionVec K)} (h : c.length = J.jac.length) : J.Like { J with jac := c } := ⟨rfl, rfl, rfl, rfl, rfl, h, rfl⟩

theorem withJacDot {c : List (MotionVec K)} (h : c.length = J.jacDot.length) : J.Like { J with jacDot := c } := ⟨rfl, rfl, rfl, rfl, rfl, rfl, h⟩

theorem same {J' : Jac K} (h : J.Like r) (hs : J.Same mb J') : r.Same mb J' :=
  ⟨h.path.trans hs.path, h.sign.trans hs.sign, h.point.trans hs.point, h.body.trans hs.body, h.ref.trans hs.ref, h.path ▸ hs.inside,
    h.path ▸ h.jac.trans hs.jac, h.path ▸ hs.jac', h.path ▸ h.jacDot.trans hs.jacDot, h.path ▸ hs.jacDot'⟩

end Jac.Like

theorem Jac.toRef_keeps {J : Jac K} {mbc : MBC K} {c : List (MotionVec K)} : Keeps (fun r => r.length = c.length) (J.toRef mbc c) := by
  unfold Jac.toRef
  split
  · exact .skip fun _ => .pure (by simp [rotCols])
  · exact .pure rfl

theorem Jac.jacobianX_keeps (J : Jac K) (mbc : MBC K) (X : PTransform K) : Keeps J.Like (J.jacobianX mb mbc X) :=
  jacobianFill_keeps.bind fun _ h => Jac.toRef_keeps.bind fun _ h' => .pure (.withJac (h'.trans h))

theorem Jac.jacobian_keeps (J : Jac K) (mbc : MBC K) : Keeps J.Like (J.jacobian mb mbc) :=
  .skip fun _ => .skip fun _ => jacobianFill_keeps.bind fun _ h => Jac.toRef_keeps.bind fun _ h' => .pure (.withJac (h'.trans h))

theorem Jac.bodyJacobian_keeps (J : Jac K) (mbc : MBC K) : Keeps J.Like (J.bodyJacobian mb mbc) :=
  .skip fun _ => .skip fun _ => jacobianFill_keeps.bind fun _ h => .pure (.withJac h)

theorem Jac.vectorJacobian_keeps (J : Jac K) (mbc : MBC K) (v : Vec3 K) : Keeps J.Like (J.vectorJacobian mb mbc v) :=
  .skip fun _ => .skip fun _ => fillCols_keeps.bind fun _ h => .pure (.withJac h)

theorem Jac.vectorBodyJacobian_keeps (J : Jac K) (mbc : MBC K) (v : Vec3 K) : Keeps J.Like (J.vectorBodyJacobian mb mbc v) :=
  .skip fun _ => .skip fun _ => fillCols_keeps.bind fun _ h => .pure (.withJac h)

theorem Jac.jacobianDot_keeps (J : Jac K) (mbc : MBC K) : Keeps J.Like (J.jacobianDot mb mbc) :=
  .skip fun _ => .skip fun _ => .skip fun _ => .skip fun _ => fillCols_keeps.bind fun _ h => .pure (.withJacDot h)

theorem Jac.bodyJacobianDot_keeps (J : Jac K) (mbc : MBC K) : Keeps J.Like (J.bodyJacobianDot mb mbc) :=
  .skip fun _ => .skip fun _ => .skip fun _ => fillCols_keeps.bind fun _ h => .pure (.withJacDot h)

/-! ### Lists of Jacobians -/

theorem forall₂_rfl {R : α → α → Prop} (h : ∀ a, R a a) (l : List α) : List.Forall₂ R l l := by
  induction l with
  | nil => exact .nil
  | cons a l ih => exact .cons (h a) ih

theorem forall₂_comp {P : α → β → Prop} {Q : β → γ → Prop} {R : α → γ → Prop} (hc : ∀ a b c, P a b → Q b c → R a c) {l : List α} {m : List β}
    {n : List γ} (h : List.Forall₂ P l m) (h' : List.Forall₂ Q m n) : List.Forall₂ R l n := by
  induction h generalizing n with
  | nil => cases h'; exact .nil
  | cons hab _ ih => cases h' with | cons hbc h' => exact .cons (hc _ _ _ hab hbc) (ih h')

/-- An element is replaced by one that is like it. -/
theorem Keeps.wrLike {l m : List (Jac K)} {i : Nat} {J r : Jac K} (hl : List.Forall₂ Jac.Like m l) (hJ : RBDyn.rd l i = .ok J) (hr : J.Like r) :
    Keeps (fun l' => List.Forall₂ Jac.Like m l') (RBDyn.wr l i r) := by
  intro l' h
  unfold RBDyn.wr at h
  split at h
  · cases h
    refine forall₂_comp (P := Jac.Like) (Q := Jac.Like) (R := Jac.Like) (fun _ _ _ h h' => h.trans h') hl ?_
    rw [List.forall₂_iff_get]
    refine ⟨by simp, fun k hk hk' => ?_⟩
    simp only [List.get_eq_getElem]
    rw [List.getElem_set]
    split
    · next e =>
      subst e
      have := rd_eq_ok_iff.1 hJ
      rw [List.getElem?_eq_getElem hk] at this
      cases this
      exact hr
    · exact .rfl'
  · cases h

theorem Keeps.rd' {l : List α} {i : Nat} : Keeps (fun a => RBDyn.rd l i = .ok a) (RBDyn.rd l i) := fun _ h => h

/-! ### Coriolis -/

/-- `r` is `c` with other values in the working memory. -/
structure Cor.Like (c r : Cor K) : Prop where
  jacs : List.Forall₂ Jac.Like c.jacs r.jacs
  paths : r.paths = c.paths
  mat : r.mat.rows = c.mat.rows ∧ r.mat.cols = c.mat.cols
  res : r.res.rows = c.res.rows ∧ r.res.cols = c.res.cols

theorem forall₂_symm {R : α → α → Prop} (h : ∀ a b, R a b → R b a) {l m : List α} (hl : List.Forall₂ R l m) : List.Forall₂ R m l :=
  hl.flip.imp fun a b hab => h b a hab

theorem Cor.Same.symm {c c' : Cor K} (h : c.Same mb c') : c'.Same mb c :=
  ⟨forall₂_symm (fun _ _ h => h.symm) h.jacs, h.paths.symm, ⟨h.mat.1.symm, h.mat.2.symm⟩, ⟨h.res.1.symm, h.res.2.symm⟩⟩

theorem CoMDummy.Same.symm {c c' : CoMDummy K} (h : c.Same mb c') : c'.Same mb c :=
  ⟨⟨h.jac.2.2.1, h.jac.2.2.2, h.jac.1, h.jac.2.1⟩, ⟨h.jacDot.2.2.1, h.jacDot.2.2.2, h.jacDot.1, h.jacDot.2.1⟩,
    ⟨h.jacFull.2.2.1, h.jacFull.2.2.2, h.jacFull.1, h.jacFull.2.1⟩, forall₂_symm (fun _ _ h => h.symm) h.jacVec, h.totalMass.symm, h.weight.symm⟩

theorem CMM.Same.symm {c c' : CMM K} (h : c.Same mb c') : c'.Same mb c :=
  ⟨⟨h.cmMat.1.symm, h.cmMat.2.symm⟩, ⟨h.cmMatDot.1.symm, h.cmMatDot.2.symm⟩, forall₂_symm (fun _ _ h => h.symm) h.jacVec, h.blocks.symm,
    h.jacWork.symm, h.weight.symm, h.normalAcc.2, h.normalAcc.1⟩

theorem Cor.Like.same {c r c' : Cor K} (h : c.Like r) (hs : c.Same mb c') : r.Same mb c' :=
  ⟨forall₂_comp (fun _ _ _ h hs => (h.same hs)) (h.jacs.flip.imp fun _ _ h => h) hs.jacs, h.paths.trans hs.paths,
    ⟨h.mat.1.trans hs.mat.1, h.mat.2.trans hs.mat.2⟩, ⟨h.res.1.trans hs.res.1, h.res.2.trans hs.res.2⟩⟩

theorem Cor.coriolis_keeps (c : Cor K) (mbc : MBC K) : Keeps c.Like (c.coriolis mb mbc) := by
  unfold Cor.coriolis
  refine Keeps.list c.Like ⟨forall₂_rfl (fun _ => .rfl') _, rfl, ⟨rfl, rfl⟩, ⟨rfl, rfl⟩⟩ fun i s hs => ?_
  unfold Cor.step
  refine Keeps.rd'.bind fun J hJ => (J.jacobian_keeps mbc).bind fun J1 h1 => (J1.jacobianDot_keeps mbc).bind fun J2 h2 => ?_
  refine .skip fun _ => .skip fun _ => .skip fun _ => .skip fun _ => setBlock_keeps.bind fun R hR => .skip fun _ => .skip fun _ => ?_
  refine expandAddBlocks_keeps.bind fun M hM => (Keeps.wrLike hs.jacs hJ (h1.trans h2)).bind fun l hl => .pure ?_
  exact ⟨hl, hs.paths, ⟨hM.1.trans hs.mat.1, hM.2.trans hs.mat.2⟩, ⟨hR.1.trans hs.res.1, hR.2.trans hs.res.2⟩⟩

/-! ### Centre of mass -/

theorem addScaled_keeps {a b : DMat K} {s : K} : Keeps (fun m => m.rows = a.rows ∧ m.cols = a.cols) (a.addScaled b s) := by
  intro m h
  unfold DMat.addScaled at h
  split at h
  · cases h; exact ⟨rfl, rfl⟩
  · cases h

theorem zeroBlock_keeps {a : DMat K} {r c p q : Nat} : Keeps (fun m => m.rows = a.rows ∧ m.cols = a.cols) (a.zeroBlock r c p q) := by
  intro m h
  unfold DMat.zeroBlock at h
  exact setBlock_keeps m h

theorem fullJacobian_keeps {J : Jac K} {m F : DMat K} : Keeps (fun u => u.rows = F.rows ∧ u.cols = F.cols) (J.fullJacobian mb m F) := by
  unfold Jac.fullJacobian
  refine zeroBlock_keeps.bind fun Z hZ => ?_
  unfold Jac.addFullJacobian
  refine Keeps.bind (P := fun s : DMat K × Nat => s.1.rows = F.rows ∧ s.1.cols = F.cols) (Keeps.list _ hZ fun _ s hs => ?_) fun s hs => .pure hs
  exact .skip fun _ => .skip fun _ => .skip fun _ => .skip fun _ => addBlock_keeps.bind fun u hu => .pure ⟨hu.1.trans hs.1, hu.2.trans hs.2⟩

/-- `r` is `c` with other values in the working memory. -/
structure CoMDummy.Like (c r : CoMDummy K) : Prop where
  jac : r.jac.rows = c.jac.rows ∧ r.jac.cols = c.jac.cols
  jacDot : r.jacDot.rows = c.jacDot.rows ∧ r.jacDot.cols = c.jacDot.cols
  jacFull : r.jacFull.rows = c.jacFull.rows ∧ r.jacFull.cols = c.jacFull.cols
  jacVec : List.Forall₂ Jac.Like c.jacVec r.jacVec
  totalMass : r.totalMass = c.totalMass
  weight : r.weight = c.weight

theorem CoMDummy.Like.same {c r c' : CoMDummy K} (h : c.Like r) (hs : c.Same mb c') : r.Same mb c' :=
  ⟨⟨h.jac.1.trans hs.jac.1, h.jac.2.trans hs.jac.2.1, hs.jac.2.2⟩, ⟨h.jacDot.1.trans hs.jacDot.1, h.jacDot.2.trans hs.jacDot.2.1, hs.jacDot.2.2⟩,
    ⟨h.jacFull.1.trans hs.jacFull.1, h.jacFull.2.trans hs.jacFull.2.1, hs.jacFull.2.2⟩,
    forall₂_comp (fun _ _ _ h hs => (h.same hs)) (h.jacVec.flip.imp fun _ _ h => h) hs.jacVec, h.totalMass.trans hs.totalMass, h.weight.trans hs.weight⟩

theorem CoMDummy.jacobian_keeps (c : CoMDummy K) (mbc : MBC K) : Keeps c.Like (c.jacobian mb mbc) := by
  unfold CoMDummy.jacobian
  refine Keeps.bind (Keeps.list c.Like ⟨⟨rfl, rfl⟩, ⟨rfl, rfl⟩, ⟨rfl, rfl⟩, forall₂_rfl (fun _ => .rfl') _, rfl, rfl⟩ fun i s hs => ?_) fun s hs => ?_
  · unfold CoMDummy.jacStep
    refine Keeps.rd'.bind fun J hJ => (J.jacobian_keeps mbc).bind fun J1 h1 => .skip fun _ => fullJacobian_keeps.bind fun F hF => ?_
    refine .skip fun _ => .skip fun _ => addScaled_keeps.bind fun M hM => (Keeps.wrLike hs.jacVec hJ h1).bind fun l hl => .pure ?_
    exact ⟨⟨hM.1.trans hs.jac.1, hM.2.trans hs.jac.2⟩, hs.jacDot, ⟨hF.1.trans hs.jacFull.1, hF.2.trans hs.jacFull.2⟩, hl, hs.totalMass, hs.weight⟩
  · split
    · exact .pure ⟨hs.jac, hs.jacDot, hs.jacFull, hs.jacVec, hs.totalMass, hs.weight⟩
    · exact fun _ h => by cases h

theorem CoMDummy.jacobianDot_keeps (c : CoMDummy K) (mbc : MBC K) : Keeps c.Like (c.jacobianDot mb mbc) := by
  unfold CoMDummy.jacobianDot
  refine Keeps.bind (Keeps.list c.Like ⟨⟨rfl, rfl⟩, ⟨rfl, rfl⟩, ⟨rfl, rfl⟩, forall₂_rfl (fun _ => .rfl') _, rfl, rfl⟩ fun i s hs => ?_) fun s hs => ?_
  · unfold CoMDummy.jacDotStep
    refine Keeps.rd'.bind fun J hJ => (J.jacobianDot_keeps mbc).bind fun J1 h1 => .skip fun _ => fullJacobian_keeps.bind fun F hF => ?_
    refine .skip fun _ => .skip fun _ => addScaled_keeps.bind fun M hM => (Keeps.wrLike hs.jacVec hJ h1).bind fun l hl => .pure ?_
    exact ⟨hs.jac, ⟨hM.1.trans hs.jacDot.1, hM.2.trans hs.jacDot.2⟩, ⟨hF.1.trans hs.jacFull.1, hF.2.trans hs.jacFull.2⟩, hl, hs.totalMass, hs.weight⟩
  · split
    · exact .pure ⟨hs.jac, hs.jacDot, hs.jacFull, hs.jacVec, hs.totalMass, hs.weight⟩
    · exact fun _ h => by cases h

/-! ### Centroidal momentum -/

/-- `r` is `c` with other values in the working memory. -/
structure CMM.Like (c r : CMM K) : Prop where
  cmMat : r.cmMat.rows = c.cmMat.rows ∧ r.cmMat.cols = c.cmMat.cols
  cmMatDot : r.cmMatDot.rows = c.cmMatDot.rows ∧ r.cmMatDot.cols = c.cmMatDot.cols
  jacVec : List.Forall₂ Jac.Like c.jacVec r.jacVec
  blocks : r.blocks = c.blocks
  jacWork : r.jacWork.length = c.jacWork.length
  weight : r.weight = c.weight
  normalAcc : r.normalAcc.length = c.normalAcc.length

theorem CMM.Like.same {c r c' : CMM K} (h : c.Like r) (hs : c.Same mb c') : r.Same mb c' :=
  ⟨⟨h.cmMat.1.trans hs.cmMat.1, h.cmMat.2.trans hs.cmMat.2⟩, ⟨h.cmMatDot.1.trans hs.cmMatDot.1, h.cmMatDot.2.trans hs.cmMatDot.2⟩,
    forall₂_comp (fun _ _ _ h hs => (h.same hs)) (h.jacVec.flip.imp fun _ _ h => h) hs.jacVec, h.blocks.trans hs.blocks, h.jacWork.trans hs.jacWork,
    h.weight.trans hs.weight, h.normalAcc.trans hs.normalAcc.1, hs.normalAcc.2⟩

theorem CMM.Like.rfl' {c : CMM K} : c.Like c := ⟨⟨rfl, rfl⟩, ⟨rfl, rfl⟩, forall₂_rfl (fun _ => .rfl') _, rfl, rfl, rfl, rfl⟩

theorem CMM.computeMatrix_keeps (c : CMM K) (mbc : MBC K) (com : Vec3 K) : Keeps c.Like (c.computeMatrix mb mbc com) := by
  unfold CMM.computeMatrix
  refine Keeps.list c.Like ⟨⟨rfl, rfl⟩, ⟨rfl, rfl⟩, forall₂_rfl (fun _ => .rfl') _, rfl, rfl, rfl, rfl⟩ fun i s hs => ?_
  unfold CMM.matStep
  refine Keeps.rd'.bind fun J hJ => (J.bodyJacobian_keeps mbc).bind fun J1 h1 => ?_
  refine .skip fun _ => .skip fun _ => .skip fun _ => .skip fun _ => addFullBlocks_keeps.bind fun M hM => ?_
  refine (Keeps.wrLike hs.jacVec hJ h1).bind fun l hl => Keeps.wr.bind fun w hw => .pure ?_
  exact ⟨⟨hM.1.trans hs.cmMat.1, hM.2.trans hs.cmMat.2⟩, hs.cmMatDot, hl, hs.blocks, hw.trans hs.jacWork, hs.weight, hs.normalAcc⟩

theorem CMM.computeMatrixDot_keeps (c : CMM K) (mbc : MBC K) (com comDot : Vec3 K) : Keeps c.Like (c.computeMatrixDot mb mbc com comDot) := by
  unfold CMM.computeMatrixDot
  refine Keeps.list c.Like ⟨⟨rfl, rfl⟩, ⟨rfl, rfl⟩, forall₂_rfl (fun _ => .rfl') _, rfl, rfl, rfl, rfl⟩ fun i s hs => ?_
  unfold CMM.matDotStep
  refine Keeps.rd'.bind fun J hJ => (J.bodyJacobian_keeps mbc).bind fun J1 h1 => (J1.bodyJacobianDot_keeps mbc).bind fun J2 h2 => ?_
  refine .skip fun _ => .skip fun _ => .skip fun _ => .skip fun _ => .skip fun _ => .skip fun _ => addFullBlocks_keeps.bind fun M hM => ?_
  refine (Keeps.wrLike hs.jacVec hJ (h1.trans h2)).bind fun l hl => Keeps.wr.bind fun w hw => .pure ?_
  exact ⟨hs.cmMat, ⟨hM.1.trans hs.cmMatDot.1, hM.2.trans hs.cmMatDot.2⟩, hl, hs.blocks, hw.trans hs.jacWork, hs.weight, hs.normalAcc⟩

theorem CMM.computeMatrixAndMatrixDot_keeps (c : CMM K) (mbc : MBC K) (com comDot : Vec3 K) :
    Keeps c.Like (c.computeMatrixAndMatrixDot mb mbc com comDot) := by
  unfold CMM.computeMatrixAndMatrixDot
  refine Keeps.list c.Like ⟨⟨rfl, rfl⟩, ⟨rfl, rfl⟩, forall₂_rfl (fun _ => .rfl') _, rfl, rfl, rfl, rfl⟩ fun i s hs => ?_
  unfold CMM.matBothStep
  refine Keeps.rd'.bind fun J hJ => (J.bodyJacobian_keeps mbc).bind fun J1 h1 => (J1.bodyJacobianDot_keeps mbc).bind fun J2 h2 => ?_
  refine .skip fun _ => .skip fun _ => .skip fun _ => .skip fun _ => addFullBlocks_keeps.bind fun M hM => ?_
  refine .skip fun _ => .skip fun _ => .skip fun _ => addFullBlocks_keeps.bind fun M' hM' => ?_
  refine (Keeps.wrLike hs.jacVec hJ (h1.trans h2)).bind fun l hl => Keeps.wr.bind fun w hw => .pure ?_
  exact ⟨⟨hM.1.trans hs.cmMat.1, hM.2.trans hs.cmMat.2⟩, ⟨hM'.1.trans hs.cmMatDot.1, hM'.2.trans hs.cmMatDot.2⟩, hl, hs.blocks,
    hw.trans hs.jacWork, hs.weight, hs.normalAcc⟩

theorem normalAcc_keeps (mbc : MBC K) (a : List (MotionVec K)) (n : Nat) :
    Keeps (fun r => r.length = a.length) ((List.range n).foldlM (normalAccStep mb mbc) a) := by
  refine Keeps.list (fun r : List (MotionVec K) => r.length = a.length) rfl fun i s hs => ?_
  unfold normalAccStep
  refine .skip fun _ => .skip fun _ => .skip fun _ => .skip fun _ => .skip fun _ => ?_
  split
  · exact .skip fun _ => Keeps.wrI.imp fun _ h => h.trans hs
  · exact Keeps.wrI.imp fun _ h => h.trans hs

theorem CMM.normalMomentumDot_keeps (c : CMM K) (mbc : MBC K) (com comDot : Vec3 K) :
    Keeps (fun r => c.Like r.2) (c.normalMomentumDot mb mbc com comDot) :=
  (normalAcc_keeps mbc c.normalAcc _).bind fun _ ha => .skip fun _ => .pure ⟨⟨rfl, rfl⟩, ⟨rfl, rfl⟩, forall₂_rfl (fun _ => .rfl') _, rfl, rfl, rfl, ha⟩

/-! ### Centre of mass, second version -/

/-- `r` is `c` with other values in the working memory. -/
structure CoMJac.Like (c r : CoMJac K) : Prop where
  jac : r.jac.length = c.jac.length
  jacDot : r.jacDot.length = c.jacDot.length
  coeff : r.coeff = c.coeff
  com : r.com = c.com
  sub : r.sub = c.sub
  comWorld : r.comWorld.length = c.comWorld.length
  comVelB : r.comVelB.length = c.comVelB.length
  normalAcc : r.normalAcc.length = c.normalAcc.length
  weight : r.weight = c.weight

omit [Scalar K] in
theorem CoMJac.Like.rfl' {c : CoMJac K} : c.Like c := ⟨rfl, rfl, rfl, rfl, rfl, rfl, rfl, rfl, rfl⟩

theorem CoMJac.jacobian_keeps (c : CoMJac K) (mbc : MBC K) : Keeps c.Like (c.jacobian mb mbc) := by
  unfold CoMJac.jacobian
  refine Keeps.bind (Keeps.list c.Like .rfl' fun i s hs => ?_) fun s hs => ?_
  · exact .skip fun _ => .skip fun _ => Keeps.wr.bind fun w hw => .pure
      ⟨hs.jac, hs.jacDot, hs.coeff, hs.com, hs.sub, hw.trans hs.comWorld, hs.comVelB, hs.normalAcc, hs.weight⟩
  · refine Keeps.bind (P := fun r : List (Vec3 K) × Nat => r.1.length = s.jac.length) (Keeps.list _ (by simp) fun i r hr => ?_) fun r hr => ?_
    · refine .skip fun _ => .skip fun _ => .skip fun _ => Keeps.bind (P := fun l : List (Vec3 K) => l.length = s.jac.length)
        (Keeps.list _ hr fun b l hl => .skip fun _ => writeCols_keeps.imp fun _ h => h.trans hl) fun l hl => .pure hl
    · exact .pure ⟨hr.trans hs.jac, hs.jacDot, hs.coeff, hs.com, hs.sub, hs.comWorld, hs.comVelB, hs.normalAcc, hs.weight⟩

theorem CoMJac.jacobianDot_keeps (c : CoMJac K) (mbc : MBC K) : Keeps c.Like (c.jacobianDot mb mbc) := by
  unfold CoMJac.jacobianDot
  refine Keeps.bind (Keeps.list c.Like .rfl' fun i s hs => ?_) fun s hs => ?_
  · exact .skip fun _ => .skip fun _ => Keeps.wr.bind fun w hw => .skip fun _ => Keeps.wr.bind fun v hv => .pure
      ⟨hs.jac, hs.jacDot, hs.coeff, hs.com, hs.sub, hw.trans hs.comWorld, hv.trans hs.comVelB, hs.normalAcc, hs.weight⟩
  · refine Keeps.bind (P := fun r : List (Vec3 K) × Nat => r.1.length = s.jacDot.length) (Keeps.list _ (by simp) fun i r hr => ?_) fun r hr => ?_
    · refine .skip fun _ => .skip fun _ => .skip fun _ => Keeps.bind (P := fun l : List (Vec3 K) => l.length = s.jacDot.length)
        (Keeps.list _ hr fun b l hl => .skip fun _ => .skip fun _ => .skip fun _ => .skip fun _ => .skip fun _ =>
          writeCols_keeps.imp fun _ h => h.trans hl) fun l hl => .pure hl
    · exact .pure ⟨hs.jac, hr.trans hs.jacDot, hs.coeff, hs.com, hs.sub, hs.comWorld, hs.comVelB, hs.normalAcc, hs.weight⟩

theorem CoMJac.normalAcceleration_keeps (c : CoMJac K) (mbc : MBC K) : Keeps (fun r => c.Like r.2) (c.normalAcceleration mb mbc) :=
  (normalAcc_keeps mbc c.normalAcc _).bind fun _ ha => .skip fun _ => .pure ⟨rfl, rfl, rfl, rfl, rfl, rfl, rfl, ha, rfl⟩

theorem CoMJac.update_keeps (c : CoMJac K) : Keeps (fun r => r.coeff.length = c.coeff.length ∧ r.com.length = c.com.length ∧
    r = { c with coeff := r.coeff, com := r.com }) (c.update mb) := by
  unfold CoMJac.update
  refine .skip fun m => Keeps.list (fun r : CoMJac K => r.coeff.length = c.coeff.length ∧ r.com.length = c.com.length ∧
    r = { c with coeff := r.coeff, com := r.com }) ⟨rfl, rfl, rfl⟩ fun i s hs => ?_
  refine .skip fun _ => .skip fun _ => Keeps.wr.bind fun w hw => Keeps.wr.bind fun v hv => .pure ⟨hw.trans hs.1, hv.trans hs.2.1, ?_⟩
  rw [hs.2.2]

/-! ### Inverse kinematics -/

theorem ikLoop_keeps (solve : List (MotionVec K) → MotionVec K → List K) (rotErr : Mat3 K → Mat3 K → Vec3 K) (ik : IK K)
    (target : PTransform K) : ∀ (n : Nat) (mbc : MBC K) (J : Jac K), Keeps (fun r => J.Like r.2.1) (ikLoop solve rotErr ik mb target n mbc J) := by
  intro n
  induction n with
  | zero => exact fun mbc J => .pure .rfl'
  | succ n ih =>
    intro mbc J
    unfold ikLoop
    refine (J.jacobian_keeps mbc).bind fun J1 h1 => ?_
    refine .skip fun _ => .skip fun _ => .skip fun _ => .skip fun _ => .skip fun _ => ?_
    split
    · exact .pure h1
    · exact (ih _ J1).imp fun _ h => h1.trans h

end RBDyn
