import Verif.Base.Container
import Mathlib.Algebra.BigOperators.Group.Finset.Basic
import Mathlib.Algebra.Field.Defs

/-! `Eigen::MatrixXd`: dimensions known at run time. Entries outside the dimensions are meaningless. -/

namespace RBDyn
variable {K : Type}

/-- `Eigen::MatrixXd`. -/
structure DMat (K : Type) where
  rows : Nat
  cols : Nat
  get : Nat → Nat → K

namespace DMat

/-- `m.setZero()` -/
def setZero [Zero K] (m : DMat K) : DMat K := { m with get := fun _ _ => 0 }

/-- `m.block(r, c, p, q) = b`: Eigen asserts that the block lies inside `m` and that `b` is `p × q`. -/
def setBlock (m : DMat K) (r c p q : Nat) (b : DMat K) : Res (DMat K) :=
  if r + p ≤ m.rows ∧ c + q ≤ m.cols ∧ b.rows = p ∧ b.cols = q then
    .ok { m with get := fun i j => if r ≤ i ∧ i < r + p ∧ c ≤ j ∧ j < c + q then b.get (i - r) (j - c) else m.get i j }
  else .error .ub

/-- `m.block(r, c, p, q)` -/
def block (m : DMat K) (r c p q : Nat) : Res (DMat K) :=
  if r + p ≤ m.rows ∧ c + q ≤ m.cols then .ok ⟨p, q, fun i j => m.get (r + i) (c + j)⟩ else .error .ub

/-- `m.block(r, c, p, q) += b`: Eigen asserts that the block lies inside `m` and that `b` is `p × q`. -/
def addBlock [Add K] (m : DMat K) (r c p q : Nat) (b : DMat K) : Res (DMat K) :=
  if r + p ≤ m.rows ∧ c + q ≤ m.cols ∧ b.rows = p ∧ b.cols = q then
    .ok { m with get := fun i j =>
      if r ≤ i ∧ i < r + p ∧ c ≤ j ∧ j < c + q then m.get i j + b.get (i - r) (j - c) else m.get i j }
  else .error .ub

/-- `m.block(r, c, p, q).setZero()` -/
def zeroBlock [Zero K] (m : DMat K) (r c p q : Nat) : Res (DMat K) := m.setBlock r c p q ⟨p, q, fun _ _ => 0⟩

/-- `m.transpose()` -/
def tr (m : DMat K) : DMat K := ⟨m.cols, m.rows, fun i j => m.get j i⟩

/-- Entry `r` of the product of a matrix and a vector. -/
def mulVecAt [Field K] (m : DMat K) (v : List K) (r : Nat) : K := ∑ c ∈ Finset.range m.cols, m.get r c * v.getD c 0

end DMat

/-- `v.segment(p, n) = w`: Eigen asserts that the segment lies inside `v` and that `w` has `n` entries. -/
def setSegment (v : List K) (p n : Nat) (w : List K) : Res (List K) :=
  if p + n ≤ v.length ∧ w.length = n then .ok (v.take p ++ w ++ v.drop (p + n)) else .error .ub

/-- `v.segment(p, n)` -/
def segment (v : List K) (p n : Nat) : Res (List K) :=
  if p + n ≤ v.length then .ok ((v.drop p).take n) else .error .ub

end RBDyn
