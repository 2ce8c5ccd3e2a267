import Verif.Lemmas.GraphMotion
import Verif.Lemmas.Mass

/-! Forces on the bodies of a graph. -/

namespace RBDyn
variable {K : Type} [Scalar K]

theorem PTransform.mul_dualMul {X Y : PTransform K} (hX : IsRigid X) (hY : IsRigid Y) (f : ForceVec K) :
    (X * Y).dualMul f = X.dualMul (Y.dualMul f) := by
  have e := PTransform.mul_transMul X Y (X.dualMul (Y.dualMul f)) hY
  rw [PTransform.transMul_dualMul hX, PTransform.transMul_dualMul hY] at e
  rw [← PTransform.dualMul_transMul (hX.mul hY) (X.dualMul (Y.dualMul f)), e]

theorem PTransform.dualMul_sub (X : PTransform K) (f g : ForceVec K) : X.dualMul (f - g) = X.dualMul f - X.dualMul g :=
  map_sub X.dualHom f g

namespace Graph
variable {h : Heap K} {g : Graph} {r : Nat} {d par : Nat → Nat}

/-- The inertia of a body of the graph. -/
def nodeInertia (h : Heap K) (x : Nat) : RBInertia K := ((h.nodes[x]?).map (·.body.inertia)).getD 0

/-- The force that moves a body of the graph, in its frame: what its motion needs beyond the external force `fe` given in the world. -/
def bodyNet (h : Heap K) (W : Nat → PTransform K) (V A : Nat → MotionVec K) (fe : Nat → ForceVec K) (x : Nat) : ForceVec K :=
  (nodeInertia h x).mulMotion (A x) + (V x).crossDual ((nodeInertia h x).mulMotion (V x)) - (W x).dualMul (fe x)

section
variable {J : Joint K} {X0 Xb : PTransform K} {N : List Nat} {mb : MultiBody K}

theorem Rooting.inertia (G : Rooting h g r d par J X0 Xb N mb) {x : Nat} (hx : x ∈ g.nodes) :
    mb.inertiaAt (N.idxOf x) = (xf h r par Xb x).dualMulI (nodeInertia h x) := by
  obtain ⟨n, hn, hb⟩ := (G.tr.entry _ _ (G.index hx).1).body
  unfold MultiBody.inertiaAt nodeInertia
  rw [show mb.bodies[N.idxOf x]? = _ from hb, hn]
  rfl

theorem Rooting.net (G : Rooting h g r d par J X0 Xb N mb) (F : Forest h g) (H : RigidGraph h g) {q : List (List K)}
    (hv : ValidQ mb q) (α αD : List (List K)) (a0 : MotionVec K) {fx fe : Nat → ForceVec K} {x : Nat} (hx : x ∈ g.nodes)
    (hf : fx (N.idxOf x) = fe x) :
    mb.netForceAt q α αD a0 fx (N.idxOf x) = (xf h r par Xb x).dualMul (bodyNet h (fkPlace h r par Xb N mb q)
      (inGraph h r par Xb N (mb.velAt q α)) (inGraph h r par Xb N (mb.accAt q α αD a0)) fe x) := by
  have rx := G.xf_rigid F H hx
  have rW : IsRigid (fkPlace h r par Xb N mb q x) := rx.inv.mul (mb.posAt_rigid G.rigid hv _)
  have eW : mb.posAt q (N.idxOf x) = xf h r par Xb x * fkPlace h r par Xb N mb q x := by
    rw [fkPlace, ← PTransform.mul_assoc', PTransform.mul_inv rx, PTransform.one_mul']
  unfold MultiBody.netForceAt bodyNet
  rw [G.inertia hx, ← G.xf_inGraph F H (mb.accAt q α αD a0) hx, ← G.xf_inGraph F H (mb.velAt q α) hx,
    PTransform.dualMulI_mulMotion rx, PTransform.dualMulI_mulMotion rx, eW, hf, PTransform.mul_dualMul rx rW, PTransform.dualMul_sub,
    PTransform.dualMul_add, PTransform.dualMul_crossDual rx]

theorem sum_range_nodes {M : Type} [AddCommMonoid M] (hN : N.Perm g.nodes) (hnd : N.Nodup) (f : Nat → M) (φ : Nat → M)
    (e : ∀ x ∈ g.nodes, f (N.idxOf x) = φ x) : ∑ i ∈ Finset.range N.length, f i = (g.nodes.map φ).sum := by
  rw [← (hN.map φ).sum_eq, Finset.sum_range]
  rw [← List.sum_ofFn]
  congr 1
  apply List.ext_getElem (by simp)
  intro i h1 h2
  have hi : i < N.length := by simpa using h2
  simp only [List.getElem_ofFn, List.getElem_map]
  rw [← e _ (hN.mem_iff.1 (List.getElem_mem hi)), hnd.idxOf_getElem i hi]

/-- Virtual work: the power of the torques of the motion `(α, αD)` along the velocities `β` is the sum of the powers of the forces on the
bodies of the graph. -/
theorem Rooting.power (G : Rooting h g r d par J X0 Xb N mb) (F : Forest h g) (H : RigidGraph h g) {q : List (List K)}
    (hv : ValidQ mb q) (α αD β : List (List K)) (a0 : MotionVec K) {fx fe : Nat → ForceVec K} (hf : ∀ x ∈ g.nodes, fx (N.idxOf x) = fe x) :
    (mb.dofSum fun i a => entry β i a * ((mb.SAt i).getD a 0).dot (mb.wrenchAt q (mb.netForceAt q α αD a0 fx) i)) =
      (g.nodes.map fun x => (inGraph h r par Xb N (mb.velAt q β) x).dot (bodyNet h (fkPlace h r par Xb N mb q)
        (inGraph h r par Xb N (mb.velAt q α)) (inGraph h r par Xb N (mb.accAt q α αD a0)) fe x)).sum := by
  rw [G.wf.power, G.length]
  refine sum_range_nodes G.perm (G.nodup F) _ _ fun x hx => ?_
  rw [G.net F H hv α αD a0 hx (hf x hx), ← G.xf_inGraph F H (mb.velAt q β) hx, PTransform.mulMotion_dot_dualMul (G.xf_rigid F H hx)]

end
end Graph
end RBDyn
