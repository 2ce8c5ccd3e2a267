import Verif.Spec.Rigid
import Mathlib.Algebra.Module.LinearMap.Basic

/-! Algebra of spatial vectors. -/

namespace RBDyn
variable {K : Type} [Field K]
open scoped Mat3

/-! ### Vec3 -/
namespace Vec3
theorem cross_add (a b c : Vec3 K) : a.cross (b + c) = a.cross b + a.cross c := by
  ext <;> simp <;> ring
theorem add_cross (a b c : Vec3 K) : (a + b).cross c = a.cross c + b.cross c := by
  ext <;> simp <;> ring
theorem cross_sub (a b c : Vec3 K) : a.cross (b - c) = a.cross b - a.cross c := by
  ext <;> simp <;> ring
theorem sub_cross (a b c : Vec3 K) : (a - b).cross c = a.cross c - b.cross c := by
  ext <;> simp <;> ring
theorem cross_smul (s : K) (a b : Vec3 K) : a.cross (s • b) = s • a.cross b := by
  ext <;> simp <;> ring
theorem smul_cross (s : K) (a b : Vec3 K) : (s • a).cross b = s • a.cross b := by
  ext <;> simp <;> ring
theorem cross_neg (a b : Vec3 K) : a.cross (-b) = -a.cross b := by
  ext <;> simp <;> ring
theorem neg_cross (a b : Vec3 K) : (-a).cross b = -a.cross b := by
  ext <;> simp <;> ring
@[simp] theorem cross_zero (a : Vec3 K) : a.cross 0 = 0 := by ext <;> simp
@[simp] theorem zero_cross (a : Vec3 K) : (0 : Vec3 K).cross a = 0 := by ext <;> simp
@[simp] theorem cross_self (a : Vec3 K) : a.cross a = 0 := by ext <;> simp <;> ring
theorem cross_anti (a b : Vec3 K) : a.cross b = -b.cross a := by ext <;> simp <;> ring
theorem jacobi (a b c : Vec3 K) : a.cross (b.cross c) = (a.cross b).cross c + b.cross (a.cross c) := by
  ext <;> simp <;> ring
theorem cross_cross (a b c : Vec3 K) : a.cross (b.cross c) = (a.dot c) • b - (a.dot b) • c := by
  ext <;> simp [dot] <;> ring
theorem dot_comm (a b : Vec3 K) : a.dot b = b.dot a := by simp [dot]; ring
theorem dot_add (a b c : Vec3 K) : a.dot (b + c) = a.dot b + a.dot c := by simp [dot]; ring
theorem add_dot (a b c : Vec3 K) : (a + b).dot c = a.dot c + b.dot c := by simp [dot]; ring
theorem dot_sub (a b c : Vec3 K) : a.dot (b - c) = a.dot b - a.dot c := by simp [dot]; ring
theorem sub_dot (a b c : Vec3 K) : (a - b).dot c = a.dot c - b.dot c := by simp [dot]; ring
theorem dot_smul (s : K) (a b : Vec3 K) : a.dot (s • b) = s * a.dot b := by simp [dot]; ring
theorem smul_dot (s : K) (a b : Vec3 K) : (s • a).dot b = s * a.dot b := by simp [dot]; ring
theorem dot_neg (a b : Vec3 K) : a.dot (-b) = -a.dot b := by simp [dot]; ring
theorem neg_dot (a b : Vec3 K) : (-a).dot b = -a.dot b := by simp [dot]; ring
@[simp] theorem dot_zero (a : Vec3 K) : a.dot 0 = 0 := by simp [dot]
@[simp] theorem zero_dot (a : Vec3 K) : (0 : Vec3 K).dot a = 0 := by simp [dot]
theorem dot_cross_cyc (a b c : Vec3 K) : a.dot (b.cross c) = b.dot (c.cross a) := by
  simp [dot]; ring
theorem dot_cross_swap (a b c : Vec3 K) : a.dot (b.cross c) = (a.cross b).dot c := by
  simp [dot]; ring
end Vec3

/-! ### Mat3 -/
namespace Mat3
theorem mul_assoc' (a b c : Mat3 K) : a * b * c = a * (b * c) := by ext <;> simp <;> ring
@[simp] theorem one_mul' (a : Mat3 K) : 1 * a = a := by ext <;> simp
@[simp] theorem mul_one' (a : Mat3 K) : a * 1 = a := by ext <;> simp
theorem mul_add' (a b c : Mat3 K) : a * (b + c) = a * b + a * c := by ext <;> simp <;> ring
theorem add_mul' (a b c : Mat3 K) : (a + b) * c = a * c + b * c := by ext <;> simp <;> ring
@[simp] theorem zero_mul' (a : Mat3 K) : 0 * a = 0 := by ext <;> simp
@[simp] theorem mul_zero' (a : Mat3 K) : a * 0 = 0 := by ext <;> simp

omit [Field K] in
@[simp] theorem tr_tr (a : Mat3 K) : a.tr.tr = a := rfl
@[simp] theorem tr_one : (1 : Mat3 K).tr = 1 := rfl
@[simp] theorem tr_zero : (0 : Mat3 K).tr = 0 := rfl
theorem tr_mul (a b : Mat3 K) : (a * b).tr = b.tr * a.tr := by ext <;> simp <;> ring
theorem tr_add (a b : Mat3 K) : (a + b).tr = a.tr + b.tr := rfl
theorem tr_sub (a b : Mat3 K) : (a - b).tr = a.tr - b.tr := rfl
theorem tr_smul (s : K) (a : Mat3 K) : (s • a).tr = s • a.tr := rfl
theorem tr_crossMat (v : Vec3 K) : (crossMat v).tr = -crossMat v := by ext <;> simp [tr]

theorem mul_mulVec (a b : Mat3 K) (v : Vec3 K) : (a * b) *ᵥ v = a *ᵥ b *ᵥ v := by
  ext <;> simp <;> ring
@[simp] theorem one_mulVec (v : Vec3 K) : (1 : Mat3 K) *ᵥ v = v := by ext <;> simp
@[simp] theorem zero_mulVec (v : Vec3 K) : (0 : Mat3 K) *ᵥ v = 0 := by ext <;> simp
@[simp] theorem mulVec_zero (a : Mat3 K) : a *ᵥ (0 : Vec3 K) = 0 := by ext <;> simp
theorem mulVec_add (a : Mat3 K) (v w : Vec3 K) : a *ᵥ (v + w) = a *ᵥ v + a *ᵥ w := by
  ext <;> simp <;> ring
theorem mulVec_sub (a : Mat3 K) (v w : Vec3 K) : a *ᵥ (v - w) = a *ᵥ v - a *ᵥ w := by
  ext <;> simp <;> ring
theorem mulVec_neg (a : Mat3 K) (v : Vec3 K) : a *ᵥ (-v) = -(a *ᵥ v) := by
  ext <;> simp <;> ring
theorem mulVec_smul (a : Mat3 K) (s : K) (v : Vec3 K) : a *ᵥ (s • v) = s • (a *ᵥ v) := by
  ext <;> simp <;> ring
theorem add_mulVec (a b : Mat3 K) (v : Vec3 K) : (a + b) *ᵥ v = a *ᵥ v + b *ᵥ v := by
  ext <;> simp <;> ring
theorem sub_mulVec (a b : Mat3 K) (v : Vec3 K) : (a - b) *ᵥ v = a *ᵥ v - b *ᵥ v := by
  ext <;> simp <;> ring
theorem neg_mulVec (a : Mat3 K) (v : Vec3 K) : (-a) *ᵥ v = -(a *ᵥ v) := by
  ext <;> simp <;> ring
theorem smul_mulVec (s : K) (a : Mat3 K) (v : Vec3 K) : (s • a) *ᵥ v = s • (a *ᵥ v) := by
  ext <;> simp <;> ring
theorem crossMat_mulVec (a v : Vec3 K) : crossMat a *ᵥ v = a.cross v := by
  ext <;> simp <;> ring
theorem dot_mulVec (a : Mat3 K) (v w : Vec3 K) : v.dot (a *ᵥ w) = (a.tr *ᵥ v).dot w := by
  simp [Vec3.dot]; ring
theorem det_mul (a b : Mat3 K) : (a * b).det = a.det * b.det := by
  simp [det]; ring
@[simp] theorem det_one : (1 : Mat3 K).det = 1 := by simp [det]
theorem det_tr (a : Mat3 K) : a.tr.det = a.det := by simp [det]; ring

/-- A matrix is determined by its action. -/
theorem ext_mulVec {a b : Mat3 K} (h : ∀ v : Vec3 K, a *ᵥ v = b *ᵥ v) : a = b := by
  have h1 := h ⟨1, 0, 0⟩
  have h2 := h ⟨0, 1, 0⟩
  have h3 := h ⟨0, 0, 1⟩
  simp only [Vec3.ext_iff, mulVec_x, mulVec_y, mulVec_z, mul_one, mul_zero, add_zero, zero_add] at h1 h2 h3
  ext
  exacts [h1.1, h2.1, h3.1, h1.2.1, h2.2.1, h3.2.1, h1.2.2, h2.2.2, h3.2.2]
end Mat3

namespace Sym3
omit [Field K] in
theorem tr_toMat (a : Sym3 K) : a.toMat.tr = a.toMat := rfl
theorem toMat_add (a b : Sym3 K) : (a + b).toMat = a.toMat + b.toMat := rfl
omit [Field K] in
@[simp] theorem ofLower_toMat (a : Sym3 K) : ofLower a.toMat = a := rfl
omit [Field K] in
theorem toMat_ofLower {A : Mat3 K} (h : A.tr = A) : (ofLower A).toMat = A := by
  have := Mat3.ext_iff.1 h
  simp only [Mat3.tr_m00, Mat3.tr_m01, Mat3.tr_m02, Mat3.tr_m10, Mat3.tr_m11, Mat3.tr_m12, Mat3.tr_m20,
    Mat3.tr_m21, Mat3.tr_m22] at this
  obtain ⟨-, h1, h2, -, -, h3, -, -, -⟩ := this
  ext <;> simp only [toMat, ofLower] <;> assumption
theorem ofLower_add (a b : Mat3 K) : ofLower (a + b) = ofLower a + ofLower b := rfl
end Sym3

/-! ### Rotations -/

/-- The adjugate. -/
def Mat3.adj (a : Mat3 K) : Mat3 K :=
  ⟨a.m11 * a.m22 - a.m12 * a.m21, a.m02 * a.m21 - a.m01 * a.m22, a.m01 * a.m12 - a.m02 * a.m11,
   a.m12 * a.m20 - a.m10 * a.m22, a.m00 * a.m22 - a.m02 * a.m20, a.m02 * a.m10 - a.m00 * a.m12,
   a.m10 * a.m21 - a.m11 * a.m20, a.m01 * a.m20 - a.m00 * a.m21, a.m00 * a.m11 - a.m01 * a.m10⟩

theorem Mat3.adj_mul (a : Mat3 K) : a.adj * a = a.det • 1 := by
  ext <;> simp [Mat3.adj, Mat3.det] <;> ring
theorem Mat3.mul_adj (a : Mat3 K) : a * a.adj = a.det • 1 := by
  ext <;> simp [Mat3.adj, Mat3.det] <;> ring

/-- cross product and adjugate: `M a × M b = adj(M)ᵀ (a × b)` -/
theorem Mat3.mulVec_cross_mulVec (M : Mat3 K) (a b : Vec3 K) :
    (M *ᵥ a).cross (M *ᵥ b) = M.adj.tr *ᵥ (a.cross b) := by
  ext <;> simp [Mat3.adj] <;> ring

namespace IsRot
variable {E F : Mat3 K}

theorem one : IsRot (1 : Mat3 K) := ⟨by ext <;> simp, by simp⟩

theorem adj_eq (h : IsRot E) : E.adj = E.adj * (E * E.tr) := by
  have h1 : E.adj * E = 1 := by rw [Mat3.adj_mul, h.2, one_smul]
  have h2 : E * E.adj = 1 := by rw [Mat3.mul_adj, h.2, one_smul]
  -- `E.tr` is a left inverse, `E.adj` a right inverse
  have h3 : E.tr = E.adj := by
    have : E.tr * (E * E.adj) = E.adj := by rw [← Mat3.mul_assoc', h.1, Mat3.one_mul']
    rwa [h2, Mat3.mul_one'] at this
  rw [h3, h2, Mat3.mul_one']

theorem adj_eq_tr (h : IsRot E) : E.adj = E.tr := by
  have h2 : E * E.adj = 1 := by rw [Mat3.mul_adj, h.2, one_smul]
  have : E.tr * (E * E.adj) = E.adj := by rw [← Mat3.mul_assoc', h.1, Mat3.one_mul']
  rw [h2, Mat3.mul_one'] at this
  exact this.symm

theorem tr_mul (h : IsRot E) : E.tr * E = 1 := h.1

theorem mul_tr (h : IsRot E) : E * E.tr = 1 := by
  rw [← h.adj_eq_tr, Mat3.mul_adj, h.2, one_smul]

theorem tr (h : IsRot E) : IsRot E.tr := ⟨by rw [Mat3.tr_tr, h.mul_tr], by rw [Mat3.det_tr, h.2]⟩

theorem mul (h : IsRot E) (h' : IsRot F) : IsRot (E * F) := by
  refine ⟨?_, by rw [Mat3.det_mul, h.2, h'.2, one_mul]⟩
  rw [Mat3.tr_mul, Mat3.mul_assoc', ← Mat3.mul_assoc' E.tr, h.1, Mat3.one_mul', h'.1]

theorem tr_mulVec (h : IsRot E) (v : Vec3 K) : E.tr *ᵥ E *ᵥ v = v := by
  rw [← Mat3.mul_mulVec, h.1, Mat3.one_mulVec]

theorem mulVec_tr (h : IsRot E) (v : Vec3 K) : E *ᵥ E.tr *ᵥ v = v := by
  rw [← Mat3.mul_mulVec, h.mul_tr, Mat3.one_mulVec]

theorem mulVec_cross (h : IsRot E) (a b : Vec3 K) :
    E *ᵥ (a.cross b) = (E *ᵥ a).cross (E *ᵥ b) := by
  rw [Mat3.mulVec_cross_mulVec, h.adj_eq_tr, Mat3.tr_tr]

theorem tr_mulVec_cross (h : IsRot E) (a b : Vec3 K) :
    E.tr *ᵥ (a.cross b) = (E.tr *ᵥ a).cross (E.tr *ᵥ b) := h.tr.mulVec_cross a b

theorem dot (h : IsRot E) (a b : Vec3 K) : (E *ᵥ a).dot (E *ᵥ b) = a.dot b := by
  rw [Mat3.dot_mulVec, h.tr_mulVec]
end IsRot

/-! ### Motion and force vectors -/

namespace MotionVec
theorem cross_add (a b c : MotionVec K) : a.cross (b + c) = a.cross b + a.cross c := by
  ext <;> simp [cross] <;> ring
theorem add_cross (a b c : MotionVec K) : (a + b).cross c = a.cross c + b.cross c := by
  ext <;> simp [cross] <;> ring
theorem cross_smul (s : K) (a b : MotionVec K) : a.cross (s • b) = s • a.cross b := by
  ext <;> simp [cross] <;> ring
theorem smul_cross (s : K) (a b : MotionVec K) : (s • a).cross b = s • a.cross b := by
  ext <;> simp [cross] <;> ring
@[simp] theorem cross_self (a : MotionVec K) : a.cross a = 0 := by
  ext <;> simp [cross] <;> ring
@[simp] theorem cross_zero (a : MotionVec K) : a.cross 0 = 0 := by
  ext <;> simp [cross]
@[simp] theorem zero_cross (a : MotionVec K) : (0 : MotionVec K).cross a = 0 := by
  ext <;> simp [cross]
theorem cross_anti (a b : MotionVec K) : a.cross b = -b.cross a := by
  ext <;> simp [cross] <;> ring
theorem jacobi (a b c : MotionVec K) :
    a.cross (b.cross c) = (a.cross b).cross c + b.cross (a.cross c) := by
  ext <;> simp [cross] <;> ring
theorem crossDual_add (a : MotionVec K) (f g : ForceVec K) :
    a.crossDual (f + g) = a.crossDual f + a.crossDual g := by
  ext <;> simp [crossDual] <;> ring
theorem add_crossDual (a b : MotionVec K) (f : ForceVec K) :
    (a + b).crossDual f = a.crossDual f + b.crossDual f := by
  ext <;> simp [crossDual] <;> ring
theorem crossDual_smul (s : K) (a : MotionVec K) (f : ForceVec K) :
    a.crossDual (s • f) = s • a.crossDual f := by
  ext <;> simp [crossDual] <;> ring
theorem smul_crossDual (s : K) (a : MotionVec K) (f : ForceVec K) :
    (s • a).crossDual f = s • a.crossDual f := by
  ext <;> simp [crossDual] <;> ring
@[simp] theorem crossDual_zero (a : MotionVec K) : a.crossDual 0 = 0 := by
  ext <;> simp [crossDual]
@[simp] theorem zero_crossDual (f : ForceVec K) : (0 : MotionVec K).crossDual f = 0 := by
  ext <;> simp [crossDual]
theorem dot_crossDual (a b : MotionVec K) (f : ForceVec K) :
    a.dot (b.crossDual f) = -(b.cross a).dot f := by
  simp [dot, cross, crossDual, Vec3.dot]; ring
theorem dot_add (a : MotionVec K) (f g : ForceVec K) : a.dot (f + g) = a.dot f + a.dot g := by
  simp [dot, Vec3.dot]; ring
theorem dot_sub (a : MotionVec K) (f g : ForceVec K) : a.dot (f - g) = a.dot f - a.dot g := by
  simp [dot, Vec3.dot]; ring
theorem dot_neg (a : MotionVec K) (f : ForceVec K) : a.dot (-f) = -a.dot f := by
  simp [dot, Vec3.dot]; ring
theorem dot_smul (s : K) (a : MotionVec K) (f : ForceVec K) : a.dot (s • f) = s * a.dot f := by
  simp [dot, Vec3.dot]; ring
theorem add_dot (a b : MotionVec K) (f : ForceVec K) : (a + b).dot f = a.dot f + b.dot f := by
  simp [dot, Vec3.dot]; ring
theorem neg_dot (a : MotionVec K) (f : ForceVec K) : (-a).dot f = -a.dot f := by
  simp [dot, Vec3.dot]; ring
theorem sub_dot (a b : MotionVec K) (f : ForceVec K) : (a - b).dot f = a.dot f - b.dot f := by
  simp [dot, Vec3.dot]; ring
theorem smul_dot (s : K) (a : MotionVec K) (f : ForceVec K) : (s • a).dot f = s * a.dot f := by
  simp [dot, Vec3.dot]; ring
@[simp] theorem dot_zero (a : MotionVec K) : a.dot 0 = 0 := by simp [dot]
@[simp] theorem zero_dot (f : ForceVec K) : (0 : MotionVec K).dot f = 0 := by simp [dot]

/-- `a ↦ a.dot f` as an additive map. -/
def dotHom (a : MotionVec K) : ForceVec K →+ K where
  toFun f := a.dot f
  map_zero' := dot_zero a
  map_add' := dot_add a
@[simp] theorem dotHom_apply (a : MotionVec K) (f : ForceVec K) : dotHom a f = a.dot f := rfl
end MotionVec

/-! ### Rigid body inertia -/

namespace RBInertia
variable (a b : RBInertia K)
theorem mulMotion_add (v w : MotionVec K) : a.mulMotion (v + w) = a.mulMotion v + a.mulMotion w := by
  ext <;> simp [mulMotion] <;> ring
theorem mulMotion_smul (s : K) (v : MotionVec K) : a.mulMotion (s • v) = s • a.mulMotion v := by
  ext <;> simp [mulMotion] <;> ring
@[simp] theorem mulMotion_zero : a.mulMotion (0 : MotionVec K) = 0 := by
  ext <;> simp [mulMotion]
theorem mulMotion_neg (v : MotionVec K) : a.mulMotion (-v) = -a.mulMotion v := by
  ext <;> simp [mulMotion] <;> ring
theorem mulMotion_sub (v w : MotionVec K) : a.mulMotion (v - w) = a.mulMotion v - a.mulMotion w := by
  ext <;> simp [mulMotion] <;> ring
theorem add_mulMotion (v : MotionVec K) : (a + b).mulMotion v = a.mulMotion v + b.mulMotion v := by
  ext <;> simp [mulMotion] <;> ring
@[simp] theorem zero_mulMotion (v : MotionVec K) : (0 : RBInertia K).mulMotion v = 0 := by
  ext <;> simp [mulMotion]
/-- Rigid body inertias are symmetric. -/
theorem dot_mulMotion_comm (v w : MotionVec K) : v.dot (a.mulMotion w) = w.dot (a.mulMotion v) := by
  simp [mulMotion, MotionVec.dot, Vec3.dot]; ring

/-- An inertia is determined by its action. -/
theorem ext_mulMotion {a b : RBInertia K} (h : ∀ v, a.mulMotion v = b.mulMotion v) : a = b := by
  have e1 := h ⟨⟨1, 0, 0⟩, 0⟩
  have e2 := h ⟨⟨0, 1, 0⟩, 0⟩
  have e3 := h ⟨⟨0, 0, 1⟩, 0⟩
  have e4 := h ⟨0, ⟨1, 0, 0⟩⟩
  simp [mulMotion, ForceVec.ext_iff, Vec3.ext_iff] at e1 e2 e3 e4
  obtain ⟨⟨x1, x2, x3⟩, x4, x5⟩ := e1
  obtain ⟨⟨y1, y2, y3⟩, y4, y5⟩ := e2
  obtain ⟨⟨z1, z2, z3⟩, z4, z5⟩ := e3
  obtain ⟨⟨w1, w2⟩, w4⟩ := e4
  ext <;> assumption
end RBInertia

/-! ### Plücker transforms -/

namespace PTransform

theorem mul_assoc' (a b c : PTransform K) : a * b * c = a * (b * c) := by
  ext <;> simp <;> ring
@[simp] theorem one_mul' (a : PTransform K) : 1 * a = a := by ext <;> simp
@[simp] theorem mul_one' (a : PTransform K) : a * 1 = a := by ext <;> simp [Mat3.tr]

instance : Monoid (PTransform K) where
  mul_assoc := mul_assoc'
  one_mul := one_mul'
  mul_one := mul_one'

theorem inv_inv (a : PTransform K) (h : IsRigid a) : a.inv.inv = a := by
  ext1
  · rfl
  · simp only [inv, Mat3.mulVec_neg, neg_neg]
    exact IsRot.tr_mulVec h _

theorem mul_inv {a : PTransform K} (h : IsRigid a) : a * a.inv = 1 := by
  ext1
  · exact h.mul_tr
  · simp only [mul_r, inv, one_r, Mat3.tr_tr, neg_add_cancel]

theorem inv_mul {a : PTransform K} (h : IsRigid a) : a.inv * a = 1 := by
  ext1
  · exact h.tr_mul
  · simp only [mul_r, inv, one_r, Mat3.mulVec_neg, h.tr_mulVec, add_neg_cancel]

theorem inv_mul_rev (a b : PTransform K) (hb : IsRigid b) : (a * b).inv = b.inv * a.inv := by
  ext1
  · exact Mat3.tr_mul _ _
  · simp only [mul_r, inv, mul_E, Mat3.tr_tr, Mat3.mul_mulVec, Mat3.mulVec_add, Mat3.mulVec_neg,
      hb.mulVec_tr]
    abel

theorem inv_one : (1 : PTransform K).inv = 1 := by ext <;> simp [inv]

section action
variable (X Y : PTransform K)

theorem mulMotion_add (v w : MotionVec K) : X.mulMotion (v + w) = X.mulMotion v + X.mulMotion w := by
  ext <;> simp [mulMotion] <;> ring
theorem mulMotion_smul (s : K) (v : MotionVec K) : X.mulMotion (s • v) = s • X.mulMotion v := by
  ext <;> simp [mulMotion] <;> ring
@[simp] theorem mulMotion_zero : X.mulMotion 0 = 0 := by ext <;> simp [mulMotion]
@[simp] theorem one_mulMotion (v : MotionVec K) : (1 : PTransform K).mulMotion v = v := by
  ext <;> simp [mulMotion]

/-- the action on motion vectors as a linear map -/
def motionHom : MotionVec K →ₗ[K] MotionVec K where
  toFun := X.mulMotion
  map_add' := X.mulMotion_add
  map_smul' s v := X.mulMotion_smul s v
@[simp] theorem motionHom_apply (v : MotionVec K) : X.motionHom v = X.mulMotion v := rfl

theorem mulMotion_neg (v : MotionVec K) : X.mulMotion (-v) = -X.mulMotion v := X.motionHom.map_neg v
theorem mulMotion_sub (v w : MotionVec K) : X.mulMotion (v - w) = X.mulMotion v - X.mulMotion w :=
  X.motionHom.map_sub v w

theorem transMul_add (f g : ForceVec K) : X.transMul (f + g) = X.transMul f + X.transMul g := by
  ext <;> simp [transMul] <;> ring
theorem transMul_smul (s : K) (f : ForceVec K) : X.transMul (s • f) = s • X.transMul f := by
  ext <;> simp [transMul] <;> ring
@[simp] theorem transMul_zero : X.transMul 0 = 0 := by ext <;> simp [transMul]
@[simp] theorem one_transMul (f : ForceVec K) : (1 : PTransform K).transMul f = f := by
  ext <;> simp [transMul, Mat3.tr]
/-- the transposed action on force vectors as a linear map -/
def transHom : ForceVec K →ₗ[K] ForceVec K where
  toFun := X.transMul
  map_add' := X.transMul_add
  map_smul' s v := X.transMul_smul s v
@[simp] theorem transHom_apply (f : ForceVec K) : X.transHom f = X.transMul f := rfl
theorem transMul_neg (f : ForceVec K) : X.transMul (-f) = -X.transMul f := X.transHom.map_neg f
theorem transMul_sub (f g : ForceVec K) : X.transMul (f - g) = X.transMul f - X.transMul g :=
  X.transHom.map_sub f g

theorem dualMul_add (f g : ForceVec K) : X.dualMul (f + g) = X.dualMul f + X.dualMul g := by
  ext <;> simp [dualMul] <;> ring
theorem dualMul_smul (s : K) (f : ForceVec K) : X.dualMul (s • f) = s • X.dualMul f := by
  ext <;> simp [dualMul] <;> ring
@[simp] theorem dualMul_zero : X.dualMul 0 = 0 := by ext <;> simp [dualMul]
/-- the action on force vectors as a linear map -/
def dualHom : ForceVec K →ₗ[K] ForceVec K where
  toFun := X.dualMul
  map_add' := X.dualMul_add
  map_smul' s v := X.dualMul_smul s v
@[simp] theorem dualHom_apply (f : ForceVec K) : X.dualHom f = X.dualMul f := rfl

/-- `transMul` is the transpose of the action on motion vectors. -/
theorem mulMotion_dot (v : MotionVec K) (f : ForceVec K) :
    (X.mulMotion v).dot f = v.dot (X.transMul f) := by
  simp [mulMotion, transMul, MotionVec.dot, Vec3.dot]; ring
end action

theorem mul_transMul (X Y : PTransform K) (f : ForceVec K) (h : IsRigid Y) :
    (X * Y).transMul f = Y.transMul (X.transMul f) := by
  ext1
  · simp only [transMul, mul_E, mul_r, Mat3.tr_mul, Mat3.mul_mulVec, Mat3.mulVec_add, Vec3.add_cross]
    rw [h.tr_mulVec_cross]; abel
  · simp only [transMul, mul_E, Mat3.tr_mul, Mat3.mul_mulVec]

theorem mul_mulMotion (X Y : PTransform K) (v : MotionVec K) (h : IsRigid Y) :
    (X * Y).mulMotion v = X.mulMotion (Y.mulMotion v) := by
  ext1
  · simp only [mulMotion, mul_E, Mat3.mul_mulVec]
  · simp only [mulMotion, mul_E, mul_r, Mat3.mul_mulVec]
    congr 1
    rw [Vec3.add_cross, ← sub_sub, Mat3.mulVec_sub _ _ ((Y.E.tr *ᵥ X.r).cross v.ang), h.mulVec_cross,
      h.mulVec_tr]

theorem invMul_eq (X : PTransform K) (h : IsRigid X) (v : MotionVec K) :
    X.invMul v = X.inv.mulMotion v := by
  ext1
  · rfl
  · simp only [invMul, inv, mulMotion, Vec3.neg_cross, sub_neg_eq_add, Mat3.mulVec_add]
    rw [h.tr_mulVec_cross, h.tr_mulVec]

theorem dualMul_eq (X : PTransform K) (h : IsRigid X) (f : ForceVec K) :
    X.dualMul f = X.inv.transMul f := by
  ext1
  · simp only [dualMul, inv, transMul, Mat3.tr_tr, Vec3.neg_cross, Mat3.mulVec_sub]
    rw [h.mulVec_cross, sub_eq_add_neg]
  · rfl

theorem _root_.RBDyn.IsRigid.inv {X : PTransform K} (h : IsRigid X) : IsRigid X.inv := IsRot.tr h
theorem _root_.RBDyn.IsRigid.mul {X Y : PTransform K} (h : IsRigid X) (h' : IsRigid Y) : IsRigid (X * Y) :=
  IsRot.mul h h'
theorem _root_.RBDyn.IsRigid.one : IsRigid (1 : PTransform K) := IsRot.one

theorem inv_mulMotion_cancel {X : PTransform K} (h : IsRigid X) (v : MotionVec K) :
    X.inv.mulMotion (X.mulMotion v) = v := by
  rw [← mul_mulMotion _ _ _ h, inv_mul h, one_mulMotion]
theorem mulMotion_inv_cancel {X : PTransform K} (h : IsRigid X) (v : MotionVec K) :
    X.mulMotion (X.inv.mulMotion v) = v := by
  rw [← mul_mulMotion _ _ _ (IsRigid.inv h), mul_inv h, one_mulMotion]

theorem mulMotion_dot_dualMul {X : PTransform K} (h : IsRigid X) (v : MotionVec K) (f : ForceVec K) :
    (X.mulMotion v).dot (X.dualMul f) = v.dot f := by
  rw [mulMotion_dot, dualMul_eq X h, ← mul_transMul _ _ _ h, inv_mul h, one_transMul]

theorem transMul_dualMul {X : PTransform K} (h : IsRigid X) (f : ForceVec K) :
    X.transMul (X.dualMul f) = f := by
  rw [dualMul_eq X h, ← mul_transMul _ _ _ h, inv_mul h, one_transMul]
theorem dualMul_transMul {X : PTransform K} (h : IsRigid X) (f : ForceVec K) :
    X.dualMul (X.transMul f) = f := by
  rw [dualMul_eq X h, ← mul_transMul _ _ _ (IsRigid.inv h), mul_inv h, one_transMul]

theorem mulMotion_cross {X : PTransform K} (h : IsRigid X) (v w : MotionVec K) :
    X.mulMotion (v.cross w) = (X.mulMotion v).cross (X.mulMotion w) := by
  ext1
  · exact h.mulVec_cross _ _
  · simp only [mulMotion, MotionVec.cross]
    rw [← h.mulVec_cross, ← h.mulVec_cross, ← Mat3.mulVec_add]
    congr 1
    ext <;> simp <;> ring

theorem dualMul_crossDual {X : PTransform K} (h : IsRigid X) (v : MotionVec K) (f : ForceVec K) :
    X.dualMul (v.crossDual f) = (X.mulMotion v).crossDual (X.dualMul f) := by
  ext1
  · simp only [mulMotion, dualMul, MotionVec.crossDual]
    rw [← h.mulVec_cross, ← h.mulVec_cross, ← Mat3.mulVec_add]
    congr 1
    ext <;> simp <;> ring
  · exact h.mulVec_cross _ _

theorem transMul_crossDual {X : PTransform K} (h : IsRigid X) (v : MotionVec K) (f : ForceVec K) :
    X.transMul ((X.mulMotion v).crossDual f) = v.crossDual (X.transMul f) := by
  have := dualMul_crossDual h v (X.transMul f)
  rw [dualMul_transMul h] at this
  rw [← this, transMul_dualMul h]

/-- The full rotational matrix of the transported inertia. -/
theorem transMulI_toMat (X : PTransform K) (a : RBInertia K) :
    (X.transMulI a).I.toMat = X.E.tr * a.I.toMat * X.E
      - Mat3.crossMat X.r * Mat3.crossMat (X.E.tr *ᵥ a.h)
      - Mat3.crossMat (X.E.tr *ᵥ a.h + a.m • X.r) * Mat3.crossMat X.r := by
  unfold transMulI RBInertia.ofMat
  apply Sym3.toMat_ofLower
  generalize hh : X.E.tr *ᵥ a.h = h
  have e1 : (X.E.tr * a.I.toMat * X.E).tr = X.E.tr * a.I.toMat * X.E := by
    rw [Mat3.tr_mul, Mat3.tr_mul, Mat3.tr_tr, Sym3.tr_toMat, Mat3.mul_assoc']
  rw [Mat3.tr_sub, Mat3.tr_sub, e1]
  generalize X.E.tr * a.I.toMat * X.E = M
  ext <;> simp <;> ring

/-- `transMul` of an inertia is the congruence `Xᵀ I X`. -/
theorem transMulI_mulMotion {X : PTransform K} (h : IsRigid X) (a : RBInertia K) (v : MotionVec K) :
    (X.transMulI a).mulMotion v = X.transMul (a.mulMotion (X.mulMotion v)) := by
  have hh : ∀ w, X.E.tr *ᵥ (a.h.cross (X.E *ᵥ w)) = (X.E.tr *ᵥ a.h).cross w := fun w => by
    rw [h.tr_mulVec_cross, h.tr_mulVec]
  ext1
  · simp only [RBInertia.mulMotion, transMulI_toMat, mulMotion, transMul]
    rw [Mat3.mulVec_add, hh, Mat3.mulVec_sub X.E.tr, hh, Mat3.mulVec_smul, h.tr_mulVec]
    simp only [Mat3.sub_mulVec, Mat3.mul_mulVec, Mat3.crossMat_mulVec]
    simp only [transMulI, RBInertia.ofMat]
    generalize X.E.tr *ᵥ a.h = g
    generalize X.E.tr *ᵥ a.I.toMat *ᵥ X.E *ᵥ v.ang = u
    ext <;> simp <;> ring
  · simp only [RBInertia.mulMotion, mulMotion, transMul, transMulI, RBInertia.ofMat, Mat3.mulVec_sub,
      Mat3.mulVec_smul, hh, h.tr_mulVec]
    ext <;> simp <;> ring

/-- `dualMul` of an inertia is `transMul` by the inverse. -/
theorem dualMulI_eq {X : PTransform K} (h : IsRigid X) (a : RBInertia K) :
    X.dualMulI a = X.inv.transMulI a := by
  unfold dualMulI transMulI RBInertia.ofMat
  have hc : ∀ v : Vec3 K, Mat3.crossMat (X.E *ᵥ v) = X.E * Mat3.crossMat v * X.E.tr := fun v => by
    apply Mat3.ext_mulVec
    intro w
    rw [Mat3.crossMat_mulVec, Mat3.mul_mulVec, Mat3.mul_mulVec, Mat3.crossMat_mulVec, h.mulVec_cross,
      h.mulVec_tr]
  have hn : ∀ v : Vec3 K, Mat3.crossMat (-v) = -Mat3.crossMat v := fun v => by ext <;> simp
  have hv : X.E *ᵥ (a.h - a.m • X.r) = X.inv.E.tr *ᵥ a.h + a.m • X.inv.r := by
    simp only [inv, Mat3.tr_tr, Mat3.mulVec_sub, Mat3.mulVec_smul, smul_neg, ← sub_eq_add_neg]
  congr 2
  rw [← hv, hc]
  simp only [inv, Mat3.tr_tr, hn, hc]
  have e : ∀ A B : Mat3 K, X.E * A * X.E.tr * (X.E * B * X.E.tr) = X.E * (A * B) * X.E.tr := fun A B => by
    have : X.E * A * X.E.tr * (X.E * B * X.E.tr) = X.E * A * (X.E.tr * X.E) * B * X.E.tr := by
      simp only [Mat3.mul_assoc']
    rw [this, h.tr_mul, Mat3.mul_one']
    simp only [Mat3.mul_assoc']
  have en : ∀ A B : Mat3 K, -A * B = -(A * B) := fun A B => by ext <;> simp <;> ring
  have en' : ∀ A B : Mat3 K, A * -B = -(A * B) := fun A B => by ext <;> simp <;> ring
  rw [en, en', e, e, sub_neg_eq_add, sub_neg_eq_add, Mat3.mul_add', Mat3.mul_add', Mat3.add_mul', Mat3.add_mul']

/-- `dualMul` of an inertia: the momentum of the transported inertia is the transported momentum. -/
theorem dualMulI_mulMotion {X : PTransform K} (h : IsRigid X) (a : RBInertia K) (v : MotionVec K) :
    (X.dualMulI a).mulMotion (X.mulMotion v) = X.dualMul (a.mulMotion v) := by
  rw [dualMulI_eq h, transMulI_mulMotion (IsRigid.inv h), inv_mulMotion_cancel h, dualMul_eq X h]

theorem transMulI_add (X : PTransform K) (a b : RBInertia K) :
    X.transMulI (a + b) = X.transMulI a + X.transMulI b := by
  ext <;> simp [transMulI, RBInertia.ofMat] <;> ring
@[simp] theorem transMulI_zero (X : PTransform K) : X.transMulI 0 = 0 := by
  ext <;> simp [transMulI, RBInertia.ofMat]

theorem mul_transMulI (X Y : PTransform K) (hX : IsRigid X) (hY : IsRigid Y) (a : RBInertia K) :
    (X * Y).transMulI a = Y.transMulI (X.transMulI a) := by
  apply RBInertia.ext_mulMotion
  intro v
  rw [transMulI_mulMotion (IsRigid.mul hX hY), transMulI_mulMotion hY, transMulI_mulMotion hX,
    mul_mulMotion _ _ _ hY, mul_transMul _ _ _ hY]

/-- the transport of inertias as an additive map -/
def transIHom (X : PTransform K) : RBInertia K →+ RBInertia K where
  toFun := X.transMulI
  map_zero' := X.transMulI_zero
  map_add' := X.transMulI_add
@[simp] theorem transIHom_apply (X : PTransform K) (a : RBInertia K) : X.transIHom a = X.transMulI a := rfl

end PTransform

end RBDyn
