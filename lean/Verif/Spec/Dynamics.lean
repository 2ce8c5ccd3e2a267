import Verif.Spec.Kinematics
import Verif.Model.Dynamics

/-! Specification vocabulary for dynamics. -/

namespace RBDyn
variable {K : Type} [Scalar K]

/-- External force on body `k`, in world coordinates. -/
def MBC.forceAt (mbc : MBC K) (k : Nat) : ForceVec K := (mbc.force[k]?).getD 0

/-- The resultant wrench body `k` needs: rate of change of its momentum `I a + v ×* I v` (with the acceleration of a world
accelerating with `a0`, which accounts for the weight) minus the external force in body coordinates. -/
def MultiBody.netForceAt (mb : MultiBody K) (q alpha alphaD : List (List K)) (a0 : MotionVec K) (fext : Nat → ForceVec K)
    (k : Nat) : ForceVec K :=
  (mb.inertiaAt k).mulMotion (mb.accAt q alpha alphaD a0 k) +
    (mb.velAt q alpha k).crossDual ((mb.inertiaAt k).mulMotion (mb.velAt q alpha k)) - (mb.posAt q k).dualMul (fext k)

/-- The sum of the forces `f` on the bodies that hang on joint `i`, transported to body `i`. -/
def MultiBody.wrenchAt (mb : MultiBody K) (q : List (List K)) (f : Nat → ForceVec K) (i : Nat) : ForceVec K :=
  ∑ k ∈ mb.subtree i, (mb.relAt q i k).transMul (f k)

/-- The projection of a force vector on the motion subspace of joint `i`. -/
def MultiBody.project (mb : MultiBody K) (i : Nat) (f : ForceVec K) : List K := (mb.SAt i).map fun c => c.dot f

/-- Column `a` of joint `i` of the Jacobian of body `k` in body coordinates: the velocity of body `k` per unit velocity of degree of
freedom `a` of joint `i`. -/
def MultiBody.colAt (mb : MultiBody K) (q : List (List K)) (k i a : Nat) : MotionVec K :=
  if i ∈ pathUp mb.par k then (mb.relAt q i k).mulMotion ((mb.SAt i).getD a 0) else 0

/-- Entry of the mass matrix for degree of freedom `a` of joint `i` and `b` of joint `j`: `Σ_k J_kᵀ I_k J_k`. -/
def MultiBody.massAt (mb : MultiBody K) (q : List (List K)) (i a j b : Nat) : K :=
  ∑ k ∈ Finset.range mb.bodies.length, (mb.colAt q k i a).dot ((mb.inertiaAt k).mulMotion (mb.colAt q k j b))

/-- Position of the first degree of freedom of joint `i` in the flattened vectors. -/
def MultiBody.dofPosAt (mb : MultiBody K) (i : Nat) : Nat := ((mb.joints.take i).map (·.dof)).sum

/-- Sum over all degrees of freedom of all joints. -/
def MultiBody.dofSum {M : Type} [AddCommMonoid M] (mb : MultiBody K) (g : Nat → Nat → M) : M :=
  ∑ i ∈ Finset.range mb.bodies.length, ∑ a ∈ Finset.range (mb.dofAt i), g i a

/-- Entry `a` of joint `i` of a per-joint vector. -/
def entry (v : List (List K)) (i a : Nat) : K := ((v[i]?).getD []).getD a 0

/-- The working memory of `ForwardDynamics` has the sizes that belong to the `MultiBody`, as its constructor sets them. -/
structure FD.Fits (mb : MultiBody K) (d : FD K) : Prop where
  Hrows : d.H.rows = mb.nrDof
  Hcols : d.H.cols = mb.nrDof
  C : d.C.length = mb.nrDof
  Ist : d.Ist.length = mb.bodies.length
  F : d.F.map List.length = mb.joints.map (·.dof)
  acc : d.acc.length = mb.bodies.length
  f : d.f.length = mb.bodies.length
  tmpFd : d.tmpFd.length = mb.nrDof
  dofPos : d.dofPos = (List.range mb.bodies.length).map mb.dofPosAt

end RBDyn
