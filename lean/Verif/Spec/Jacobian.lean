import Verif.Spec.Dynamics
import Verif.Model.Jacobian

/-! Specification vocabulary for Jacobians. -/

namespace RBDyn
variable {K : Type} [Scalar K]
open scoped Mat3

/-- The entries of a per-joint vector that belong to the joints of a path, one joint after the other. -/
def pathVec (path : List Nat) (v : List (List K)) : List K := path.flatMap fun i => (v[i]?).getD []

/-- The sizes of a `Jacobian` object belong to the `MultiBody`. -/
structure Jac.Fits (mb : MultiBody K) (J : Jac K) : Prop where
  path : ∀ i ∈ J.path, i < mb.bodies.length
  sign : J.sign.length = J.path.length
  jac : J.jac.length = (J.path.map mb.dofAt).sum
  jacDot : J.jacDot.length = (J.path.map mb.dofAt).sum

/-- A `Jacobian` object for the point `p` of body `N`: its path leads from the root to `N`. -/
structure Jac.Of (mb : MultiBody K) (J : Jac K) (N : Nat) (p : Vec3 K) : Prop extends J.Fits mb where
  isBody : N < mb.bodies.length
  path_eq : J.path = (pathUp mb.par N).reverse
  sign_eq : J.sign = J.path.map fun _ => 1
  point : J.point = .ofTrans p
  body : J.bodyIndex = N
  ref : J.refBodyIndex = 0

/-- Velocity of the point `p` of a body with pose `W` and velocity `V` (in the frame of the body), with the orientation of the world:
`ω` and `v + ω × p`, rotated. -/
def pointVel (W : PTransform K) (V : MotionVec K) (p : Vec3 K) : MotionVec K :=
  ⟨W.E.tr *ᵥ V.ang, W.E.tr *ᵥ (V.lin + V.ang.cross p)⟩

/-- The same in the frame of the body. -/
def pointVelB (V : MotionVec K) (p : Vec3 K) : MotionVec K := ⟨V.ang, V.lin + V.ang.cross p⟩

/-- Acceleration of the point `p` of a body with pose `W`, velocity `V` and spatial acceleration `A` (in the frame of the body), with the
orientation of the world: `ω̇` and `a + ω̇ × p + ω × (v + ω × p)`, rotated. -/
def pointAcc (W : PTransform K) (V A : MotionVec K) (p : Vec3 K) : MotionVec K :=
  ⟨W.E.tr *ᵥ A.ang, W.E.tr *ᵥ (A.lin + A.ang.cross p + V.ang.cross (V.lin + V.ang.cross p))⟩

/-- The positions, in the full vector of degrees of freedom, of the columns of a path. -/
def MultiBody.dofIdx (mb : MultiBody K) (path : List Nat) : List Nat :=
  path.flatMap fun i => (List.range (mb.dofAt i)).map (mb.dofPosAt i + ·)

/-- A `Jacobian` object for the point `p` of body `N` relative to body `R`: the signed joints of its path are those from the root to `N` minus
those from the root to `R`, up to joints without degree of freedom; its last joint moves `N`. -/
structure Jac.Rel (mb : MultiBody K) (J : Jac K) (N R : Nat) (p : Vec3 K) : Prop extends J.Fits mb where
  isBody : N < mb.bodies.length
  isRef : R < mb.bodies.length
  back : J.back = .ok N
  sum : ∀ f : Nat → MotionVec K, (∀ k, mb.dofAt k = 0 → f k = 0) →
    ∑ x ∈ Finset.range J.path.length, J.sign.getD x 0 • f (J.path.getD x 0) = ∑ k ∈ mb.path N, f k - ∑ k ∈ mb.path R, f k
  point : J.point = .ofTrans p
  body : J.bodyIndex = N
  ref : J.refBodyIndex = R

/-- `c` is the deepest common ancestor of `N` and `R`. -/
structure MultiBody.IsCommon (mb : MultiBody K) (N R c : Nat) : Prop where
  left : c ∈ pathUp mb.par N
  right : c ∈ pathUp mb.par R
  deepest : ∀ x, x ∈ pathUp mb.par N → x ∈ pathUp mb.par R → x ∈ pathUp mb.par c

/-- The pairs of bodies for which the relative constructor is correct: `N` is not `R` or an ancestor of `R`, and either `R` is an ancestor of
`N`, or their deepest common ancestor exists and has a parent, or it is body 0 and the root joint has no degree of freedom. -/
def MultiBody.RelOK (mb : MultiBody K) (N R : Nat) : Prop :=
  N ∉ pathUp mb.par R ∧ (R ∈ pathUp mb.par N ∨ ∃ c, mb.IsCommon N R c ∧ ((∃ k, mb.par c = some k) ∨ c = 0 ∧ mb.dofAt 0 = 0))

/-- Velocity of the point `p` of a body (pose `W`, velocity `V`) relative to another body (pose `W'`, velocity `V'`), with the orientation
of the world: the velocity of the point minus the velocity of the point of the other body that is at the same place. -/
def relPointVel (W : PTransform K) (V : MotionVec K) (W' : PTransform K) (V' : MotionVec K) (p : Vec3 K) : MotionVec K :=
  pointVel W V p - pointVel W' V' (W'.E *ᵥ ((PTransform.ofTrans p * W).r - W'.r))

end RBDyn
