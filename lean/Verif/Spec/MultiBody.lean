import Verif.Model.Config
import Verif.Spec.Joint

/-! Specification vocabulary for `MultiBody` and `MultiBodyConfig`. -/

namespace RBDyn
variable {K : Type} [Scalar K]

/-- A tree-shaped (or forest-shaped) `MultiBody` as the constructor makes it from consistent inputs: one joint, predecessor,
successor, parent and static transform per body, joint `i` moves body `i`, every predecessor is `-1` (the world) or an
earlier body, joints come from the `Joint` API, and the positions of the joints in the flattened vectors are prefix
sums. -/
structure MultiBody.WF (mb : MultiBody K) : Prop where
  njoints : mb.joints.length = mb.bodies.length
  npred : mb.pred.length = mb.bodies.length
  nXt : mb.Xt.length = mb.bodies.length
  succ : ∀ i, i < mb.bodies.length → mb.succ[i]? = some (i : Int)
  pred : ∀ (i : Nat) (p : Int), mb.pred[i]? = some p → -1 ≤ p ∧ p < i
  parent : mb.parent = mb.pred
  built : ∀ j ∈ mb.joints, j.Built
  posParam : ∀ i, i < mb.joints.length →
    mb.jointPosInParam[i]? = some ((mb.joints.take i).map (·.params)).sum
  posDof : ∀ i, i < mb.joints.length → mb.jointPosInDof[i]? = some ((mb.joints.take i).map (·.dof)).sum
  nParams : mb.nrParams = (mb.joints.map (·.params)).sum
  nDof : mb.nrDof = (mb.joints.map (·.dof)).sum

/-- A `MultiBody` that came out of the constructor with as many joints as bodies (no assumption on the topology). -/
def MultiBody.Made (mb : MultiBody K) : Prop :=
  ∃ b j pred succ parent Xt, j.length = b.length ∧ (∀ x ∈ j, Joint.Built x) ∧
    MultiBody.mk' b j pred succ parent Xt = .ok mb

/-- Index of the parent body of body `i`, `none` for a root. -/
def MultiBody.par (mb : MultiBody K) (i : Nat) : Option Nat :=
  match mb.pred[i]? with
  | some p => if p < 0 then none else some p.toNat
  | none => none

/-- The bodies from `i` up to its root, `i` first. -/
def pathUp (par : Nat → Option Nat) (i : Nat) : List Nat :=
  match par i with
  | some j => if _h : j < i then i :: pathUp par j else [i]
  | none => [i]
termination_by i

/-- The joint frames are rigid: unit axes where it matters and proper static rotations. -/
structure MultiBody.Rigid (mb : MultiBody K) : Prop where
  joints : ∀ j ∈ mb.joints, j.BuiltUnit
  Xt : ∀ X ∈ mb.Xt, IsRigid X

/-- Every joint has as many entries as its number of parameters. -/
def SizedQ (mb : MultiBody K) (v : List (List K)) : Prop :=
  v.map List.length = mb.joints.map (·.params)
/-- Every joint has as many entries as its number of degrees of freedom. -/
def SizedDof (mb : MultiBody K) (v : List (List K)) : Prop :=
  v.map List.length = mb.joints.map (·.dof)

/-- All joint positions are valid configurations (right size, unit quaternions). -/
def ValidQ (mb : MultiBody K) (q : List (List K)) : Prop :=
  List.Forall₂ (fun j x => ValidParam (Joint.type j) x) mb.joints q

end RBDyn
