import Verif.Model.Joint
import Verif.Spec.Rigid

/-! Specification vocabulary for joints. -/

namespace RBDyn
variable {K : Type} [Scalar K]

/-- Matrix (list of columns) times vector. -/
def applyCols (S : List (MotionVec K)) (a : List K) : MotionVec K :=
  (List.zipWith (fun x c => x • c) a S).sum

/-- The user-given axis is a unit vector (only rotating joints with a user axis care). -/
def ValidAxis (t : JointType) (axis : Vec3 K) : Prop :=
  match t with
  | .Rev => IsUnit3 axis
  | .Cylindrical => IsUnit3 axis
  | _ => True

/-- A configuration of a joint of type `t`: the right number of parameters, and the quaternion part
(the first four parameters of `Spherical` and `Free`) has unit norm. -/
def ValidParam (t : JointType) (q : List K) : Prop :=
  q.length = Joint.nParams t ∧
  match t, q with
  | .Spherical, [w, x, y, z] => w * w + x * x + y * y + z * z = 1
  | .Free, [w, x, y, z, _, _, _] => w * w + x * x + y * y + z * z = 1
  | _, _ => True

/-- Joints obtainable through the public API (constructors, `forward(bool)`, `makeMimic`). -/
inductive Joint.Built : Joint K → Prop
  | mk (t : JointType) (axis : Vec3 K) (fwd : Bool) (name : String) : Built (Joint.mk' t axis fwd name)
  | setForward (j : Joint K) (fwd : Bool) : Built j → Built (j.setForward fwd)
  | makeMimic (j : Joint K) (n : String) (m o : K) : Built j → Built (j.makeMimic n m o)

/-- Joints obtainable through the public API with a unit axis where it matters. -/
inductive Joint.BuiltUnit : Joint K → Prop
  | mk (t : JointType) (axis : Vec3 K) (fwd : Bool) (name : String) :
      ValidAxis t axis → BuiltUnit (Joint.mk' t axis fwd name)
  | setForward (j : Joint K) (fwd : Bool) : BuiltUnit j → BuiltUnit (j.setForward fwd)
  | makeMimic (j : Joint K) (n : String) (m o : K) : BuiltUnit j → BuiltUnit (j.makeMimic n m o)

end RBDyn
