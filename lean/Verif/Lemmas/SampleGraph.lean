import Verif.Lemmas.GraphMB
import Verif.Lemmas.Sample

/-! A concrete graph over `ℚ`: four bodies, three joints (one declared towards the attached body, one away from it). -/

namespace RBDyn.Sample
open Graph

/-- Rigid transforms with rational entries. -/
def gX : PTransform ℚ := ⟨⟨0, 1, 0, -1, 0, 0, 0, 0, 1⟩, ⟨1, 2, 3⟩⟩
def gY : PTransform ℚ := ⟨⟨1, 0, 0, 0, 0, 1, 0, -1, 0⟩, ⟨0, -1, 0⟩⟩

theorem gX_rigid : IsRigid gX := ⟨by decide +kernel, by decide +kernel⟩
theorem gY_rigid : IsRigid gY := ⟨by decide +kernel, by decide +kernel⟩

def base : Body ℚ := ⟨⟨4, ⟨1, 0, 2⟩, ⟨5, 0, 6, 0, 0, 7⟩⟩, "base"⟩
def leaf1 : Leaf ℚ := ⟨⟨⟨2, ⟨0, 1, 0⟩, ⟨3, 0, 3, 0, 0, 3⟩⟩, "arm"⟩, Joint.mk' .Rev ⟨1, 0, 0⟩ true "shoulder", "base", gX, 1, true⟩
def leaf2 : Leaf ℚ :=
  ⟨⟨⟨1, ⟨0, 0, 1⟩, ⟨2, 0, 2, 0, 0, 2⟩⟩, "hand"⟩, Joint.mk' .Spherical ⟨0, 0, 1⟩ true "wrist", "arm", gY, gX, false⟩
def leaf3 : Leaf ℚ :=
  ⟨⟨⟨3, ⟨1, 1, 0⟩, ⟨4, 1, 4, 0, 0, 4⟩⟩, "slider"⟩, Joint.mk' .Prism ⟨0, 2, 0⟩ true "slide", "base", 1, gY, true⟩

/-- State after a call which is known to return. -/
def after (l : Leaf ℚ) (s : GSt ℚ) : GSt ℚ :=
  match l.attach s with
  | .ok _ s' => s'
  | .error _ s' => s'

def gs0 : GSt ℚ := addBodySt base (⟨[], []⟩, Graph.empty "Root")
def gs1 : GSt ℚ := after leaf1 gs0
def gs2 : GSt ℚ := after leaf2 gs1
/-- The sample graph. -/
def gs : GSt ℚ := after leaf3 gs2

theorem attach1 : leaf1.attach gs0 = .ok () gs1 := rfl
theorem attach2 : leaf2.attach gs1 = .ok () gs2 := rfl
theorem attach3 : leaf3.attach gs2 = .ok () gs := rfl

theorem gs_build : TreeBuild Joint.BuiltUnit IsRigid ⟨[], []⟩ "Root" gs := by
  have b0 := TreeBuild.root Joint.BuiltUnit IsRigid (⟨[], []⟩ : Heap ℚ) "Root" base
  have b1 := b0.attach leaf1 (p1 := 0) (by decide +kernel) (by decide +kernel) (by decide +kernel)
    (.mk _ _ _ _ (by simp [ValidAxis, IsUnit3])) gX_rigid IsRigid.one attach1
  have b2 := b1.attach leaf2 (p1 := 1) (by decide +kernel) (by decide +kernel) (by decide +kernel)
    (.mk _ _ _ _ trivial) gY_rigid gX_rigid attach2
  exact b2.attach leaf3 (p1 := 0) (by decide +kernel) (by decide +kernel) (by decide +kernel)
    (.mk _ _ _ _ trivial) IsRigid.one gY_rigid attach3

theorem gs_tree : Tree gs.1 gs.2 := gs_build.tree

theorem gs_unit : ∀ u a, Link gs.1 gs.2 u a → a.joint.BuiltUnit := by
  intro u a ha
  obtain ⟨-, j, d, hj, e⟩ := gs_build.forest.forest.2.2 u a ha
  rw [e]
  exact .setForward j d hj

theorem gs_built : BuiltArcs gs.1 gs.2 := fun u a ha => (gs_unit u a ha).built

theorem gs_rigid : ∀ u a, Link gs.1 gs.2 u a → IsRigid a.X :=
  fun u a ha => (gs_build.forest.forest.2.2 u a ha).1

theorem gs_nodes : gs.2.nodes = [0, 1, 2, 3] := by decide +kernel

theorem gs_hand : gs.2.nodeByName "hand" = .ok 2 := by decide +kernel
theorem gs_base : gs.2.nodeByName "base" = .ok 0 := by decide +kernel

theorem gs_noRoot : ∀ u a, Link gs.1 gs.2 u a → a.joint.name ≠ gs.2.rootName := by
  rintro u a ⟨hu, n, hn, ha⟩
  have key : ∀ u ∈ [0, 1, 2, 3], ∀ a ∈ ((gs.1.nodes[u]?).map GNode.arcs).getD [], a.joint.name ≠ gs.2.rootName := by
    decide +kernel
  refine key u (by rw [← gs_nodes]; exact hu) a ?_
  rw [hn]; exact ha

end RBDyn.Sample
