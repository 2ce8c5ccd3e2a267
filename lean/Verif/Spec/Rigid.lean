import Verif.Model.Spatial

/-! Specification predicates on rotations and rigid transforms. -/

namespace RBDyn
variable {K : Type}

/-- Proper rotation matrix: orthonormal with determinant one. -/
def IsRot [Field K] (E : Mat3 K) : Prop := E.tr * E = 1 ∧ E.det = 1

/-- Rigid transform: its rotation part is a proper rotation. -/
def IsRigid [Field K] (X : PTransform K) : Prop := IsRot X.E

/-- Unit vector. -/
def IsUnit3 [Field K] (a : Vec3 K) : Prop := a.x * a.x + a.y * a.y + a.z * a.z = 1

end RBDyn
