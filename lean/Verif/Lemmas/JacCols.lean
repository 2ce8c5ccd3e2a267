import Verif.Lemmas.JacFull
import Verif.Lemmas.FD

/-! The columns of the Jacobian of a point of a body, indexed by all degrees of freedom. -/

namespace RBDyn
variable {K : Type} [Scalar K] {mb : MultiBody K}
open scoped Mat3

/-- A linear function of a column of the motion subspace, for the joints that move body `k`. -/
def MultiBody.pathCol (mb : MultiBody K) (L : Nat → MotionVec K →ₗ[K] MotionVec K) (k i a : Nat) : MotionVec K :=
  if i ∈ pathUp mb.par k then L i ((mb.SAt i).getD a 0) else 0

theorem MultiBody.WF.pathCol_sum (wf : mb.WF) (L : Nat → MotionVec K →ₗ[K] MotionVec K) (v : List (List K)) (k : Nat) :
    (mb.dofSum fun i b => entry v i b • mb.pathCol L k i b) = ∑ i ∈ mb.path k, L i (mb.jointMotion v i) := by
  unfold MultiBody.path MultiBody.dofSum
  rw [Finset.sum_filter]
  refine Finset.sum_congr rfl fun i hi => ?_
  rw [Finset.mem_range] at hi
  unfold MultiBody.pathCol
  by_cases hp : i ∈ pathUp mb.par k
  · simp only [if_pos hp]
    rw [wf.jointMotion_eq v hi, map_sum]
    exact Finset.sum_congr rfl fun b _ => (map_smul _ _ _).symm
  · simp only [if_neg hp, smul_zero, Finset.sum_const_zero]

theorem dofSum_hom {M M' : Type} [AddCommMonoid M] [AddCommMonoid M'] (f : M →+ M') (g : Nat → Nat → M) :
    f (mb.dofSum g) = mb.dofSum fun i a => f (g i a) := by
  unfold MultiBody.dofSum
  rw [map_sum]
  exact Finset.sum_congr rfl fun _ _ => map_sum _ _ _

/-- Where the column of joint `i` of the path stands in the compact matrix. -/
theorem pathCols_getD {α : Type} (path : List Nat) (h : Nat → Nat → α) (d : α) {x i a : Nat} (hx : path[x]? = some i) (ha : a < mb.dofAt i) :
    (mb.pathCols path h path.length).getD (((path.take x).map mb.dofAt).sum + a) d = h x a := by
  have hxl : x < path.length := (List.getElem?_eq_some_iff.1 hx).1
  have hxe : path[x] = i := (List.getElem?_eq_some_iff.1 hx).2
  have key : ∀ k, k ≤ path.length → x < k → (mb.pathCols path h k)[mb.colOff path x + a]? = some (h x a) := by
    intro k
    induction k with
    | zero => intro _ h; omega
    | succ k ih =>
      intro hk hlt
      rw [mb.pathCols_succ path h hk]
      rcases Nat.lt_or_ge x k with hxk | hxk
      · have := ih (by omega) hxk
        rw [List.getElem?_append_left (List.getElem?_eq_some_iff.1 this).1, this]
      · obtain rfl : x = k := by omega
        rw [List.getElem?_append_right (by rw [mb.pathCols_length path h (by omega)]; omega), mb.pathCols_length path h (by omega),
          Nat.add_sub_cancel_left, List.getElem?_map, List.getElem?_range (by rw [hxe]; exact ha)]
        rfl
  have := key _ le_rfl hxl
  rw [List.getD_eq_getElem?_getD]
  unfold MultiBody.colOff at this
  rw [this]
  rfl

theorem jacCols_eq_homCols {q : List (List K)} {J : Jac K} {N : Nat} {p : Vec3 K} (h : J.Of mb N p) (X : PTransform K) :
    mb.jacCols q X J.path J.sign = mb.homCols J.path fun i => (X * (mb.posAt q i).inv).motionHom := by
  unfold MultiBody.jacCols MultiBody.homCols MultiBody.pathCols
  refine List.flatMap_congr fun x hx => ?_
  rw [List.mem_range] at hx
  refine List.map_congr_left fun a _ => ?_
  dsimp only
  rw [h.sign_eq, List.getD_eq_getElem?_getD (l := List.map _ _), List.getElem?_map, List.getElem?_eq_getElem hx]
  simp

/-- Scattering functions of the columns of the path over all degrees of freedom. -/
theorem scat_homCols₂ (wf : mb.WF) {J : Jac K} {N : Nat} {p : Vec3 K} (h : J.Of mb N p) (L L' : Nat → MotionVec K →ₗ[K] MotionVec K)
    (f : MotionVec K → MotionVec K → K) (hf : f 0 0 = 0) {i a : Nat} (hi : i < mb.bodies.length) (ha : a < mb.dofAt i) :
    scat (mb.dofIdx J.path) (fun c => f ((mb.homCols J.path L).getD c 0) ((mb.homCols J.path L').getD c 0)) (mb.dofPosAt i + a) =
      f (mb.pathCol L N i a) (mb.pathCol L' N i a) := by
  have hnd : J.path.Nodup := by rw [h.path_eq, List.nodup_reverse]; exact pathUp_nodup N
  have hmem : i ∈ J.path ↔ i ∈ pathUp mb.par N := by rw [h.path_eq, List.mem_reverse]
  unfold MultiBody.pathCol
  by_cases hp : i ∈ J.path
  · obtain ⟨x, hx⟩ := List.mem_iff_getElem?.1 hp
    rw [wf.scat_at h.path hnd hx ha, if_pos (hmem.1 hp), if_pos (hmem.1 hp)]
    unfold MultiBody.homCols
    rw [pathCols_getD _ _ _ hx ha, pathCols_getD _ _ _ hx ha, List.getD_eq_getElem?_getD, hx]
    rfl
  · rw [wf.scat_notin h.path hi ha hp, if_neg (fun h' => hp (hmem.2 h')), if_neg (fun h' => hp (hmem.2 h')), hf]

theorem scat_homCols (wf : mb.WF) {J : Jac K} {N : Nat} {p : Vec3 K} (h : J.Of mb N p) (L : Nat → MotionVec K →ₗ[K] MotionVec K)
    (f : MotionVec K → K) (hf : f 0 = 0) {i a : Nat} (hi : i < mb.bodies.length) (ha : a < mb.dofAt i) :
    scat (mb.dofIdx J.path) (fun c => f ((mb.homCols J.path L).getD c 0)) (mb.dofPosAt i + a) = f (mb.pathCol L N i a) :=
  scat_homCols₂ wf h L L (fun u _ => f u) hf hi ha

/-- Column `a` of joint `i` of the Jacobian of the point `p` of body `k`, with the orientation of the world. -/
def MultiBody.wcol (mb : MultiBody K) (q : List (List K)) (k : Nat) (p : Vec3 K) (i a : Nat) : MotionVec K :=
  mb.pathCol (fun i => (PTransform.ofTrans (PTransform.ofTrans p * mb.posAt q k).r * (mb.posAt q i).inv).motionHom) k i a

/-- Column `a` of joint `i` of `jacobianDot`. -/
def MultiBody.wdot (mb : MultiBody K) (q alpha : List (List K)) (k : Nat) (p : Vec3 K) (i a : Nat) : MotionVec K :=
  mb.pathCol (mb.dotHom q alpha k p) k i a

theorem MultiBody.wcol_eq (mb : MultiBody K) (hr : mb.Rigid) {q : List (List K)} (hq : ValidQ mb q) (k : Nat) (p : Vec3 K) (i a : Nat) :
    mb.wcol q k p i a = pointVel (mb.posAt q k) (mb.colAt q k i a) p := by
  unfold MultiBody.wcol MultiBody.pathCol MultiBody.colAt
  have rk := mb.posAt_rigid hr hq k
  have ri := mb.posAt_rigid hr hq i
  rw [← pointVel_eq]
  split
  · rw [PTransform.motionHom_apply, ← ofTrans_mul_inv rk, ← PTransform.mul_mulMotion _ _ _ (mb.relAt_rigid hr hq i k), MultiBody.relAt,
      PTransform.mul_assoc', ← PTransform.mul_assoc' (mb.posAt q k).inv, PTransform.inv_mul rk, PTransform.one_mul']
  · rw [PTransform.mulMotion_zero]

theorem MultiBody.WF.wcol_sum (wf : mb.WF) (hr : mb.Rigid) {q : List (List K)} (hq : ValidQ mb q) (v : List (List K)) (k : Nat) (p : Vec3 K) :
    (mb.dofSum fun i b => entry v i b • mb.wcol q k p i b) = pointVel (mb.posAt q k) (mb.velAt q v k) p := by
  unfold MultiBody.wcol
  rw [wf.pathCol_sum]
  simp only [PTransform.motionHom_apply]
  rw [mb.sum_transport hr hq, ofTrans_mul_inv (mb.posAt_rigid hr hq k), pointVel_eq]
  rfl

theorem MultiBody.velWAt_ang (mb : MultiBody K) (q alpha : List (List K)) (k : Nat) :
    (mb.velWAt q alpha k).ang = (mb.posAt q k).E.tr *ᵥ (mb.velAt q alpha k).ang := by
  simp [MultiBody.velWAt, PTransform.mulMotion]

theorem MultiBody.WF.wdot_sum (wf : mb.WF) (hr : mb.Rigid) {q : List (List K)} (hq : ValidQ mb q) (alpha : List (List K)) (k : Nat) (p : Vec3 K) :
    (mb.dofSum fun i b => entry alpha i b • mb.wdot q alpha k p i b) =
      pointAcc (mb.posAt q k) (mb.velAt q alpha k) (mb.accAt q alpha [] 0 k) p := by
  unfold MultiBody.wdot
  rw [wf.pathCol_sum, dot_sum hr hq, mb.velWAt_ang, pointAcc_eq (mb.posAt_rigid hr hq k)]

end RBDyn
