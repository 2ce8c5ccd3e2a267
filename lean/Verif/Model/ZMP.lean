import Verif.Model.Config

/-! Model of `src/RBDyn/ZMP.cpp`. Divisions by zero give infinities or NaN in C++ and zero here; the theorems exclude them. -/

namespace RBDyn
variable {K : Type} [Scalar K]

/-- `computeCentroidalZMP`, ZMP.cpp:15-27. -/
def computeCentroidalZMP (mbc : MBC K) (com comA : Vec3 K) (altitude : K) : Vec3 K :=
  let g := mbc.gravity.z
  ⟨com.x - ((com.z - altitude) * comA.x) / (comA.z + g), com.y - ((com.z - altitude) * comA.y) / (comA.z + g), altitude⟩

/-- `computeCentroidalZMPNoGravity`, ZMP.cpp:29-36. -/
def computeCentroidalZMPNoGravity (com comA : Vec3 K) (altitude : K) : Vec3 K :=
  ⟨com.x - ((com.z - altitude) * comA.x) / comA.z, com.y - ((com.z - altitude) * comA.y) / comA.z, altitude⟩

/-- `computeCentroidalZMPComplete`, ZMP.cpp:38-56. -/
def computeCentroidalZMPComplete (mbc : MBC K) (com comA : Vec3 K) (altitude : K) (wrExternal : ForceVec K) (mass : K) : Vec3 K :=
  let g := mbc.gravity.z
  let denom := mass * g - wrExternal.force.z
  ⟨com.x - ((com.z - altitude) * comA.x * (mass * g / denom)) / comA.z + wrExternal.couple.y / denom
      + com.z * wrExternal.force.x / denom,
   com.y - ((com.z - altitude) * comA.y * (mass * g / denom)) / comA.z - wrExternal.couple.x / denom
      + com.z * wrExternal.force.y / denom,
   altitude⟩

end RBDyn
