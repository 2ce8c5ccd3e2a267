import Verif.Spec.JointDeriv
import Verif.Spec.Kinematics

/-! Trajectories of a whole robot. -/

namespace RBDyn

/-- Entrywise derivative of a motion vector. -/
structure HasDerivMotion (f : ℝ → MotionVec ℝ) (f' : MotionVec ℝ) (t : ℝ) : Prop where
  ang : HasDerivVec (fun s => (f s).ang) f'.ang t
  lin : HasDerivVec (fun s => (f s).lin) f'.lin t

/-- `q` is a trajectory of valid joint positions which at time `t` has the generalized velocity `α`. -/
structure Trajectory (mb : MultiBody ℝ) (q : ℝ → List (List ℝ)) (α : List (List ℝ)) (t : ℝ) : Prop where
  valid : ∀ s, ValidQ mb (q s)
  sized : SizedDof mb α
  rate : ∀ (i : Nat) (j : Joint ℝ), mb.joints[i]? = some j →
    HasDerivList (fun s => ((q s)[i]?).getD []) (coordRate j.type (((q t)[i]?).getD []) ((α[i]?).getD [])) t

/-- `αD` is the derivative of the generalized velocity `α`. -/
def HasDerivDof (mb : MultiBody ℝ) (α : ℝ → List (List ℝ)) (αD : List (List ℝ)) (t : ℝ) : Prop :=
  ∀ i, i < mb.bodies.length → HasDerivList (fun s => ((α s)[i]?).getD []) ((αD[i]?).getD []) t

/-- The joints for which the motion subspace is the derivative of the pose (see C06): forward joints of any type, and
reversed `Rev`, `Prism`, `Cylindrical` and `Fixed` joints. -/
def MultiBody.DirOK (mb : MultiBody ℝ) : Prop :=
  ∀ j ∈ mb.joints, j.isForward = true ∨ j.type = .Rev ∨ j.type = .Prism ∨ j.type = .Cylindrical ∨ j.type = .Fixed

end RBDyn
