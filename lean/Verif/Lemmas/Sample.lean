import Verif.Lemmas.MultiBody

/-! A concrete robot over `ℚ`, used by the `example`s which show that the hypotheses of the theorems can be met:
a free-flying base carrying a revolute joint followed by a reversed spherical joint, and a prismatic joint. -/

namespace RBDyn.Sample

def bodies : List (Body ℚ) :=
  [⟨⟨4, ⟨1, 0, 2⟩, ⟨5, 0, 6, 0, 0, 7⟩⟩, "base"⟩, ⟨⟨2, ⟨0, 1, 0⟩, ⟨3, 0, 3, 0, 0, 3⟩⟩, "arm"⟩,
   ⟨⟨1, ⟨0, 0, 1⟩, ⟨2, 0, 2, 0, 0, 2⟩⟩, "hand"⟩, ⟨⟨3, ⟨1, 1, 0⟩, ⟨4, 1, 4, 0, 0, 4⟩⟩, "slider"⟩]

def joints : List (Joint ℚ) :=
  [Joint.mk' .Free ⟨0, 0, 1⟩ true "root", Joint.mk' .Rev ⟨1, 0, 0⟩ true "shoulder",
   Joint.mk' .Spherical ⟨0, 0, 1⟩ false "wrist", Joint.mk' .Prism ⟨0, 2, 0⟩ true "slide"]

def Xt : List (PTransform ℚ) :=
  [1, ⟨⟨0, 1, 0, -1, 0, 0, 0, 0, 1⟩, ⟨1, 2, 3⟩⟩, ⟨1, ⟨0, 0, 1⟩⟩, ⟨⟨1, 0, 0, 0, 0, 1, 0, -1, 0⟩, ⟨0, -1, 0⟩⟩]

/-- The robot: body 1 hangs on body 0, body 2 on body 1, body 3 on body 0. -/
def mb : MultiBody ℚ :=
  ((MultiBody.mk' bodies joints [-1, 0, 1, 0] [0, 1, 2, 3] [-1, 0, 1, 0] Xt).toOption).getD
    ⟨[], [], [], [], [], [], [], [], [], [], 0, 0⟩

/-- A valid configuration: quarter turns and a unit quaternion with rational entries. -/
def q : List (List ℚ) := [[1, 0, 0, 0, 1, 2, 3], [1], [3 / 5, 0, 4 / 5, 0], [-2]]
def alpha : List (List ℚ) := [[1, 0, 2, 0, -1, 0], [3], [1, 0, 1], [-1]]
def alphaD : List (List ℚ) := [[0, 1, 0, 2, 0, 0], [-1], [2, 1, 0], [1]]

theorem mk_eq : MultiBody.mk' bodies joints [-1, 0, 1, 0] [0, 1, 2, 3] [-1, 0, 1, 0] Xt = .ok mb := by decide +kernel

theorem units : ∀ j ∈ joints, j.BuiltUnit := by
  intro j hj
  simp only [joints, List.mem_cons, List.not_mem_nil, or_false] at hj
  rcases hj with rfl | rfl | rfl | rfl
  · exact .mk _ _ _ _ trivial
  · exact .mk _ _ _ _ (by simp [ValidAxis, IsUnit3])
  · exact .mk _ _ _ _ trivial
  · exact .mk _ _ _ _ trivial

theorem made : mb.Made := ⟨_, _, _, _, _, _, rfl, fun j hj => (units j hj).built, mk_eq⟩

theorem wf : mb.WF := by
  obtain ⟨mb', h, hw, -⟩ := MultiBody.mk'_wf bodies joints [-1, 0, 1, 0] [0, 1, 2, 3] [-1, 0, 1, 0] Xt rfl rfl rfl
    (by intro i hi
        have : i < 4 := hi
        obtain rfl | rfl | rfl | rfl : i = 0 ∨ i = 1 ∨ i = 2 ∨ i = 3 := by omega
        all_goals rfl)
    (by intro i p hp
        obtain ⟨hi, -⟩ := List.getElem?_eq_some_iff.1 hp
        have : i < 4 := hi
        obtain rfl | rfl | rfl | rfl : i = 0 ∨ i = 1 ∨ i = 2 ∨ i = 3 := by omega
        all_goals (cases hp; decide))
    rfl (fun j hj => (units j hj).built)
  rw [mk_eq] at h
  cases h
  exact hw

theorem rigid : mb.Rigid := by
  have h := made.inv
  have hj : mb.joints = joints := by decide +kernel
  have hX : mb.Xt = Xt := by decide +kernel
  constructor
  · rw [hj]; exact units
  · rw [hX]
    intro X hX
    simp only [Xt, List.mem_cons, List.not_mem_nil, or_false] at hX
    rcases hX with rfl | rfl | rfl | rfl <;> exact ⟨by decide +kernel, by decide +kernel⟩

theorem sizedQ : SizedQ mb q := by
  show q.map List.length = mb.joints.map (·.params)
  decide +kernel

theorem sizedAlpha : SizedDof mb alpha := by
  show alpha.map List.length = mb.joints.map (·.dof)
  decide +kernel

theorem sizedAlphaD : SizedDof mb alphaD := by
  show alphaD.map List.length = mb.joints.map (·.dof)
  decide +kernel

theorem validQ : ValidQ mb q := by
  have hj : mb.joints = joints := by decide +kernel
  unfold ValidQ
  rw [hj]
  refine .cons ⟨rfl, ?_⟩ (.cons ⟨rfl, trivial⟩ (.cons ⟨rfl, ?_⟩ (.cons ⟨rfl, trivial⟩ .nil)))
  · show (1 : ℚ) * 1 + 0 * 0 + 0 * 0 + 0 * 0 = 1
    norm_num
  · show (3 / 5 : ℚ) * (3 / 5) + 0 * 0 + 4 / 5 * (4 / 5) + 0 * 0 = 1
    norm_num

/-- Some contents for uninitialised memory. -/
def junk : Uninit ℚ := ⟨fun _ => ⟨0, 0⟩, fun _ => 0, fun _ => 0, fun _ _ => 0⟩

/-- A fresh configuration of the robot with positions, velocities and accelerations filled in. -/
def mbc : MBC ℚ :=
  { (MBC.mk' junk mb).toOption.getD ⟨[], [], [], [], [], [], [], [], [], [], [], [], [], 0⟩ with
    q := q, alpha := alpha, alphaD := alphaD }

end RBDyn.Sample
