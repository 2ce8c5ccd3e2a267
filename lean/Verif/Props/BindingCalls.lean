import Verif.Model.BindingCalls
import Verif.Lemmas.Sample
import Verif.Props.GraphRemove
import Verif.Props.GraphMake
import Verif.Props.GraphMerge
import Verif.Props.Checked

/-! Property C80: a python call does what the C++ call does. -/

namespace RBDyn
variable {K : Type}

/-! ### What is required -/

/-- The characters of a string. -/
def PyStr.chars : PyStr → String
  | .bytes s => s
  | .text s => s

/-- The python exception that stands for a C++ exception. Nothing is required after undefined behaviour. -/
inductive StandsFor : Err → CallErr → Prop
  | domain : StandsFor .domainError .valueError
  | argument : StandsFor .invalidArgument .valueError
  | range : StandsFor .outOfRange .indexError
  | runtime : StandsFor .runtimeError .runtimeError
  | loop : StandsFor .diverges .diverges
  | ub (e : CallErr) : StandsFor .ub e

/-- The outcome of a python call agrees with that of a C++ call. -/
inductive SameCall {α : Type} : Res α → CallRes α → Prop
  | ok (a : α) : SameCall (.ok a) (.ok a)
  | error {e : Err} {e' : CallErr} : StandsFor e e' → SameCall (.error e) (.error e')

/-- The same for a method that changes the graph: the graphs afterwards are equal as well, also when an exception is thrown. -/
inductive SameEdit {α : Type} : EStateM.Result Err (GSt K) α → EStateM.Result CallErr (GSt K) α → Prop
  | ok (a : α) (s : GSt K) : SameEdit (.ok a s) (.ok a s)
  | error {e : Err} {e' : CallErr} (s : GSt K) : StandsFor e e' → SameEdit (.error e s) (.error e' s)

private theorem standsFor_plus (e : Err) : StandsFor e (exceptPlus e) := by cases e <;> constructor

private theorem sameCall_py {α : Type} (r : Res α) : SameCall r (r.py exceptPlus) := by
  cases r with
  | ok a => exact .ok a
  | error e => exact .error (standsFor_plus e)

private theorem sameEdit_py {α : Type} (m : GM K α) (s : GSt K) : SameEdit (m s) (m.py exceptPlus s) := by
  unfold GM.py
  cases m s with
  | ok a s => exact .ok a s
  | error e s => exact .error s (standsFor_plus e)

private theorem chars_encode (s : PyStr) : s.encode = s.chars := by cases s <;> rfl

private theorem toStd_ok {v : PyVer} {s : PyStr} (h : v = .py2 ∨ ∃ x, s = .bytes x) : s.toStd v = .ok s.chars := by
  rcases h with rfl | ⟨x, rfl⟩
  · cases s <;> rfl
  · rfl

private theorem bind_liftOk {α β : Type} (a : α) (f : α → PyGM K β) : (PyGM.lift (.ok a) >>= f : PyGM K β) = f a := rfl

private theorem bind_liftErr {α β : Type} (e : CallErr) (f : α → PyGM K β) (s : GSt K) :
    (PyGM.lift (.error e) >>= f : PyGM K β) s = .error e s := rfl

section
variable [Scalar K]

/-! ### Building a graph -/

/-- C80: `addBody`. -/
theorem C80_add_body (b : Body K) (s : GSt K) : SameEdit (Graph.addBody b s) (pyAddBody b s) := sameEdit_py _ s

/-- C80: `addJoint`. -/
theorem C80_add_joint (j : Joint K) (s : GSt K) : SameEdit (Graph.addJoint j s) (pyAddJoint j s) := sameEdit_py _ s

/-- C80: `linkBodies`, with names of either kind. -/
theorem C80_link_bodies (b1 b2 joint : PyStr) (X Y : PTransform K) (fwd : Bool) (s : GSt K) :
    SameEdit (Graph.linkBodies b1.chars X b2.chars Y joint.chars fwd s) (pyLinkBodies b1 X b2 Y joint fwd s) := by
  unfold pyLinkBodies
  rw [chars_encode, chars_encode, chars_encode]
  exact sameEdit_py _ s

/-- C80: `removeJoint`. The restriction on the names is needed: see `C80_not_text`. -/
theorem C80_remove_joint_partial (v : PyVer) (root joint : PyStr) (h : v = .py2 ∨ ∃ x y, root = .bytes x ∧ joint = .bytes y) (s : GSt K) :
    SameEdit (Graph.removeJoint root.chars joint.chars s) (pyRemoveJoint v root joint s) := by
  unfold pyRemoveJoint
  rw [toStd_ok (h.imp_right fun ⟨x, y, h1, h2⟩ => ⟨x, h1⟩), bind_liftOk, toStd_ok (h.imp_right fun ⟨x, y, h1, h2⟩ => ⟨y, h2⟩), bind_liftOk]
  exact sameEdit_py _ s

private theorem toStdList_py2 : ∀ l : List PyStr, toStdList .py2 (l.map some) = .ok (l.map PyStr.chars)
  | [] => rfl
  | s :: l => by
    simp only [List.map_cons, toStdList]
    rw [toStd_ok (.inl rfl), toStdList_py2 l]
    rfl

/-- C80: `removeJoints` in python 2. In python 3 it never removes anything: see `C80_not_remove_joints`. -/
theorem C80_remove_joints_partial (root : PyStr) (l : List PyStr) (hl : l ≠ []) (s : GSt K) :
    SameEdit (Graph.removeJoints root.chars (l.map PyStr.chars) s) (pyRemoveJoints .py2 root (.list (l.map some)) s) := by
  cases l with
  | nil => exact absurd rfl hl
  | cons a l =>
    have ha : a.isBase .py2 = true := by cases a <;> rfl
    have hl := toStdList_py2 (a :: l)
    simp only [List.map_cons] at hl ⊢
    simp only [pyRemoveJoints, ha, if_true]
    rw [toStd_ok (.inl rfl), bind_liftOk, hl, bind_liftOk]
    exact sameEdit_py _ s

private theorem toStdList_text (s : String) (l : List (Option PyStr)) : toStdList .py3 (some (.text s) :: l) = .error .typeError := rfl

/-- C80, what the code does instead: in python 3 `removeJoints` never changes a graph, whatever its arguments: it returns without doing
anything, or it raises `TypeError`. A list of `str` is always rejected. -/
theorem C80_not_remove_joints (root : PyStr) (arg : NamesArg) (s : GSt K) :
    (pyRemoveJoints .py3 root arg s = .ok () s ∨ pyRemoveJoints .py3 root arg s = .error .typeError s) ∧
      ∀ x l, arg = .list (some (.text x) :: l) → pyRemoveJoints .py3 root arg s = .error .typeError s := by
  have text : ∀ x l, pyRemoveJoints .py3 root (.list (some (.text x) :: l)) s = .error .typeError s := by
    intro x l
    simp only [pyRemoveJoints, PyStr.isBase, if_true]
    cases root with
    | text r => rfl
    | bytes r => rfl
  refine ⟨?_, fun x l h => h ▸ text x l⟩
  match arg with
  | .other => exact .inl rfl
  | .list [] => exact .inl rfl
  | .list (none :: l) => exact .inl rfl
  | .list (some (.bytes x) :: l) => exact .inl rfl
  | .list (some (.text x) :: l) => exact .inr (text x l)

/-! ### Merging -/

private theorem toStdMap_py2 : ∀ (l : List (String × List K)) (m : SMap (List K)), (∀ e ∈ l, m.find e.1 = none) → (l.map (·.1)).Nodup →
    ∃ m', toStdMap .py2 (l.map fun e => (PyStr.text e.1, PosArg.list e.2)) m = .ok m' ∧
      (∀ e ∈ l, m'.find e.1 = some e.2) ∧ ∀ k, k ∉ l.map (·.1) → m'.find k = m.find k
  | [], m, _, _ => ⟨m, rfl, by simp, by simp⟩
  | (k, q) :: l, m, h, hd => by
    simp only [List.map_cons, List.nodup_cons] at hd
    have hm : ∀ e ∈ l, (m.set k q).find e.1 = none := by
      intro e he
      rw [SMap.find_set, if_neg (fun h' : e.1 = k => hd.1 (h' ▸ List.mem_map_of_mem he)), h e (List.mem_cons_of_mem _ he)]
    obtain ⟨m', e, h1, h2⟩ := toStdMap_py2 l (m.set k q) hm hd.2
    have hk : m.find k = none := h (k, q) List.mem_cons_self
    refine ⟨m', ?_, ?_, ?_⟩
    · simp only [List.map_cons, toStdMap, PyStr.toStd, PosArg.toStd]
      have : (if (m.find k).isSome then m else m.set k q) = m.set k q := by rw [hk]; rfl
      show toStdMap .py2 (l.map _) (if (m.find k).isSome then m else m.set k q) = _
      rw [this, e]
    · intro e' he'
      rcases List.mem_cons.1 he' with rfl | he'
      · rw [h2 _ hd.1, SMap.find_set, if_pos rfl]
      · exact h1 e' he'
    · intro x hx
      simp only [List.map_cons, List.mem_cons, not_or] at hx
      rw [h2 x hx.2, SMap.find_set, if_neg hx.1]

/-- C80: `mergeSubBodies` in python 2 with a dictionary of lists that is not empty, for calls that throw nothing. The joint positions that the
C++ function is given are those of the dictionary. In python 3 it never merges anything: see `C80_not_merge`; for exceptions see
`C80_not_merge_exceptions`. -/
theorem C80_merge_partial (root joint : PyStr) (l : List (String × List K)) (hl : l ≠ []) (hd : (l.map (·.1)).Nodup) :
    ∃ m : SMap (List K), (∀ k, m.find k = SMap.find l k) ∧
      ∀ s, (∃ a s', Graph.mergeSubBodies root.chars joint.chars m s = .ok a s') →
        SameEdit (Graph.mergeSubBodies root.chars joint.chars m s)
          (pyMergeSubBodies .py2 root joint (.dict (l.map fun e => (.text e.1, .list e.2))) s) := by
  obtain ⟨m, e, h1, h2⟩ := toStdMap_py2 l [] (fun _ _ => rfl) hd
  refine ⟨m, ?_, ?_⟩
  · intro k
    cases hf : SMap.find l k with
    | some q =>
      unfold SMap.find at hf
      obtain ⟨⟨k', q'⟩, hk, rfl⟩ := Option.map_eq_some_iff.1 hf
      have hk' : k' = k := by simpa using List.find?_some hk
      subst hk'
      exact h1 _ (List.mem_of_find?_eq_some hk)
    | none =>
      rw [h2 k]
      · rfl
      · intro hk
        obtain ⟨e', he', rfl⟩ := List.mem_map.1 hk
        unfold SMap.find at hf
        rw [Option.map_eq_none_iff, List.find?_eq_none] at hf
        exact hf e' he' (by simp)
  · rintro s ⟨a, s', hs⟩
    have hpy : pyMergeSubBodies .py2 root joint (.dict (l.map fun e => (.text e.1, .list e.2))) =
        (Graph.mergeSubBodies root.chars joint.chars m).py exceptNone := by
      cases l with
      | nil => exact absurd rfl hl
      | cons e0 l =>
        simp only [List.map_cons] at e ⊢
        simp only [pyMergeSubBodies, firstValue]
        rw [bind_liftOk]
        simp only
        rw [toStd_ok (.inl rfl), bind_liftOk, toStd_ok (.inl rfl), bind_liftOk, e, bind_liftOk]
    rw [hpy, hs]
    unfold GM.py
    rw [hs]
    exact .ok _ _

/-- C80, what the code does instead: in python 3 `mergeSubBodies` never changes a graph, whatever its arguments: it raises `TypeError` for
every dictionary that is not empty and does nothing otherwise. -/
theorem C80_not_merge (root joint : PyStr) (arg : DictArg K) (s : GSt K) :
    pyMergeSubBodies .py3 root joint arg s = (match arg with
      | .dict (_ :: _) => .error .typeError s
      | _ => .ok () s) := by
  match arg with
  | .other => rfl
  | .dict [] => rfl
  | .dict ((k, x) :: l) => rfl

/-- C80, what the code does instead: in python 2 `mergeSubBodies` ends the program where the C++ function throws, for instance for an unknown
root body. -/
theorem C80_not_merge_exceptions (root joint : PyStr) (l : List (String × List K)) (hl : l ≠ []) (hd : (l.map (·.1)).Nodup) (s : GSt K)
    (hr : s.2.bodyMap.find root.chars = none) :
    (∀ m : SMap (List K), Graph.mergeSubBodies root.chars joint.chars m s = .error .outOfRange s) ∧
      pyMergeSubBodies .py2 root joint (.dict (l.map fun e => (.text e.1, .list e.2))) s = .error .crash s := by
  have hC : ∀ m : SMap (List K), Graph.mergeSubBodies root.chars joint.chars m s = .error .outOfRange s := by
    intro m
    have : s.2.bodyMap.getAt root.chars = .error .outOfRange := by unfold SMap.getAt; rw [hr]
    show (GM.lift (s.2.bodyMap.getAt root.chars) >>= _ : GM K Unit) s = _
    rw [this]
    rfl
  refine ⟨hC, ?_⟩
  obtain ⟨m, e, -, -⟩ := toStdMap_py2 l [] (fun _ _ => rfl) hd
  cases l with
  | nil => exact absurd rfl hl
  | cons e0 l =>
    simp only [List.map_cons] at e ⊢
    simp only [pyMergeSubBodies, firstValue]
    rw [bind_liftOk]
    simp only
    rw [toStd_ok (.inl rfl), bind_liftOk, toStd_ok (.inl rfl), bind_liftOk, e, bind_liftOk]
    unfold GM.py
    rw [hC]
    rfl

/-! ### Making the robot -/

/-- The numbers of the joint types, Joint.h:51-59. -/
def JointType.number : JointType → Int
  | .Rev => 0
  | .Prism => 1
  | .Spherical => 2
  | .Planar => 3
  | .Cylindrical => 4
  | .Free => 5
  | .Fixed => 6

/-- The documented argument lists of `makeMultiBody` (`bool, (PT, (PT))` and `int, V3d, (PT, (PT))`), with the joint type, the axis and the two
transforms that they stand for. -/
inductive MakeCall : List (MakeArg K) → JointType → Vec3 K → PTransform K → PTransform K → Prop
  | fixed0 : MakeCall [.bool true] .Fixed ⟨0, 0, 1⟩ 1 1
  | fixed1 (X) : MakeCall [.bool true, .transform X] .Fixed ⟨0, 0, 1⟩ X 1
  | fixed2 (X Y) : MakeCall [.bool true, .transform X, .transform Y] .Fixed ⟨0, 0, 1⟩ X Y
  | free0 : MakeCall [.bool false] .Free ⟨0, 0, 1⟩ 1 1
  | free1 (X) : MakeCall [.bool false, .transform X] .Free ⟨0, 0, 1⟩ X 1
  | free2 (X Y) : MakeCall [.bool false, .transform X, .transform Y] .Free ⟨0, 0, 1⟩ X Y
  | axis0 (t a) : MakeCall [.int (JointType.number t), .vector3 a] t a 1 1
  | axis1 (t a X) : MakeCall [.int (JointType.number t), .vector3 a, .transform X] t a X 1
  | axis2 (t a X Y) : MakeCall [.int (JointType.number t), .vector3 a, .transform X, .transform Y] t a X Y

private theorem jointTypeOf_number (t : JointType) : jointTypeOf t.number = .ok t := by cases t <;> rfl

/-- C80: `makeMultiBody` with one of the documented argument lists is the C++ function with the joint type, axis and transforms that the
arguments stand for, with names of either kind. -/
theorem C80_make_multibody (h : Heap K) (g : Graph) (root : PyStr) {args : List (MakeArg K)} {t : JointType} {a : Vec3 K}
    {X Y : PTransform K} (hc : MakeCall args t a X Y) :
    SameCall (Graph.makeMultiBody h g root.chars t a X Y) (pyMakeMultiBody h g root args) := by
  have hx : ∀ (t : JointType) (a : Vec3 K) (X Y : PTransform K), SameCall (Graph.makeMultiBody h g root.chars t a X Y)
      (pyMakeMBWAxis h g root.encode (.int t.number) a X Y) := by
    intro t a X Y
    unfold pyMakeMBWAxis
    simp only [jointTypeOf_number]
    rw [chars_encode]
    exact sameCall_py _
  have hb : ∀ (b : Bool) (X Y : PTransform K), SameCall (Graph.makeMultiBody h g root.chars (if b then .Fixed else .Free) ⟨0, 0, 1⟩ X Y)
      (pyMakeMB h g root.encode b X Y) := by
    intro b X Y
    unfold pyMakeMB
    rw [chars_encode]
    exact sameCall_py _
  cases hc with
  | fixed0 => exact hb true 1 1
  | fixed1 X => exact hb true X 1
  | fixed2 X Y => exact hb true X Y
  | free0 => exact hb false 1 1
  | free1 X => exact hb false X 1
  | free2 X Y => exact hb false X Y
  | axis0 t a => exact hx t a 1 1
  | axis1 t a X => exact hx t a X 1
  | axis2 t a X Y => exact hx t a X Y

/-- C80: every other argument list is rejected with `TypeError`, except those where the number of the joint type is not one of the seven: the
number is used as it is, which is undefined. -/
theorem C80_make_multibody_rejected (h : Heap K) (g : Graph) (root : PyStr) (args : List (MakeArg K)) :
    (∃ t a X Y, MakeCall args t a X Y) ∨ pyMakeMultiBody h g root args = .error .typeError ∨
      ∃ i a l, args = .int i :: .vector3 a :: l ∧ (∀ t : JointType, t.number ≠ i) ∧ pyMakeMultiBody h g root args = .error .crash := by
  have hn : ∀ i : Int, (∃ t : JointType, t.number = i) ∨ jointTypeOf i = .error .crash ∧ ∀ t : JointType, t.number ≠ i := by
    intro i
    by_cases hi : ∃ t : JointType, t.number = i
    · exact .inl hi
    · refine .inr ⟨?_, fun t ht => hi ⟨t, ht⟩⟩
      unfold jointTypeOf
      split <;> first
        | rfl
        | exact absurd ⟨_, rfl⟩ hi
        | (exfalso; first
            | exact hi ⟨.Rev, rfl⟩ | exact hi ⟨.Prism, rfl⟩ | exact hi ⟨.Spherical, rfl⟩ | exact hi ⟨.Planar, rfl⟩
            | exact hi ⟨.Cylindrical, rfl⟩ | exact hi ⟨.Free, rfl⟩ | exact hi ⟨.Fixed, rfl⟩)
  have hcr : ∀ (i : Int) (a : Vec3 K) (X Y : PTransform K), jointTypeOf i = .error .crash →
      pyMakeMBWAxis h g root.encode (.int i) a X Y = .error .crash := by
    intro i a X Y hi
    unfold pyMakeMBWAxis
    simp only [hi]
    rfl
  unfold pyMakeMultiBody
  split
  · exact .inr (.inl rfl)
  · rename_i b; cases b
    · exact .inl ⟨_, _, _, _, .free0⟩
    · exact .inl ⟨_, _, _, _, .fixed0⟩
  · rename_i b X; cases b
    · exact .inl ⟨_, _, _, _, .free1 X⟩
    · exact .inl ⟨_, _, _, _, .fixed1 X⟩
  · rename_i b X Y; cases b
    · exact .inl ⟨_, _, _, _, .free2 X Y⟩
    · exact .inl ⟨_, _, _, _, .fixed2 X Y⟩
  · exact .inr (.inl rfl)
  · rename_i t a _
    cases t with
    | int i =>
      rcases hn i with ⟨t, rfl⟩ | ⟨h1, h2⟩
      · exact .inl ⟨_, _, _, _, .axis0 t a⟩
      · exact .inr (.inr ⟨i, a, _, rfl, h2, hcr i a 1 1 h1⟩)
    | _ => exact .inr (.inl rfl)
  · rename_i t a X _
    cases t with
    | int i =>
      rcases hn i with ⟨t, rfl⟩ | ⟨h1, h2⟩
      · exact .inl ⟨_, _, _, _, .axis1 t a X⟩
      · exact .inr (.inr ⟨i, a, _, rfl, h2, hcr i a X 1 h1⟩)
    | _ => exact .inr (.inl rfl)
  · rename_i t a X Y _
    cases t with
    | int i =>
      rcases hn i with ⟨t, rfl⟩ | ⟨h1, h2⟩
      · exact .inl ⟨_, _, _, _, .axis2 t a X Y⟩
      · exact .inr (.inr ⟨i, a, _, rfl, h2, hcr i a X Y h1⟩)
    | _ => exact .inr (.inl rfl)
  · exact .inr (.inl rfl)

/-- C80: `bodiesBaseTransform` and `successorJoints`. The restriction on the name is needed: see `C80_not_text`. -/
theorem C80_queries_partial (v : PyVer) (h : Heap K) (g : Graph) (root : PyStr) (hv : v = .py2 ∨ ∃ x, root = .bytes x) (X : PTransform K) :
    SameCall (Graph.bodiesBaseTransform h g root.chars X) (pyBodiesBaseTransform v h g root X) ∧
      SameCall (Graph.successorJoints h g root.chars) (pySuccessorJoints v h g root) := by
  unfold pyBodiesBaseTransform pySuccessorJoints
  rw [toStd_ok hv]
  exact ⟨sameCall_py _, sameCall_py _⟩

/-- C80, what the code does instead: in python 3 these functions reject the strings of the language, for all graphs and names, although
`linkBodies` and `makeMultiBody` accept them. -/
theorem C80_not_text (root : String) (name : PyStr) (s : GSt K) (X : PTransform K) (mb : MultiBody K) (p : Vec3 K) (dflt : Jac K)
    (junk : Nat → MotionVec K) :
    pyRemoveJoint .py3 (.text root) name s = .error .typeError s ∧
      (∀ r, pyRemoveJoint .py3 (.bytes r) (.text root) s = .error .typeError s) ∧
      pyBodiesBaseTransform .py3 s.1 s.2 (.text root) X = .error .typeError ∧
      pySuccessorJoints .py3 s.1 s.2 (.text root) = .error .typeError ∧
      pyJacobian .py3 dflt junk [.robot mb, .string (.text root)] = .error .typeError ∧
      pyJacobian .py3 dflt junk [.robot mb, .string (.text root), .point p] = .error .typeError :=
  ⟨rfl, fun _ => rfl, rfl, rfl, rfl, rfl⟩

/-! ### Joints and robots from lists -/

/-- C80: the constructors of a joint with an axis and without. -/
theorem C80_joint (t : JointType) (x y z : K) (fwd : Bool) (name : PyStr) :
    pyJointAxis t.number (.vector3 ⟨x, y, z⟩) fwd name = .ok (Joint.mk' t ⟨x, y, z⟩ fwd name.chars) ∧
      pyJointAxis t.number (.list3 x y z) fwd name = .ok (Joint.mk' t ⟨x, y, z⟩ fwd name.chars) ∧
      pyJoint t.number fwd name = .ok (Joint.mkZ (K := K) t fwd name.chars) := by
  have h : 0 ≤ t.number ∧ t.number ≤ 6 := by cases t <;> decide
  unfold pyJointAxis pyJoint
  rw [jointTypeOf_number, chars_encode]
  exact ⟨if_pos h, if_pos h, if_pos h⟩

/-- C80: other numbers of a joint type are rejected before they reach the C++ constructor. -/
theorem C80_joint_rejected (i : Int) (h : ∀ t : JointType, t.number ≠ i) (a : Vec3 K) (x y z : K) (fwd : Bool) (name : PyStr) :
    pyJointAxis i (.vector3 a) fwd name = .error .assertionError ∧ pyJointAxis i (.list3 x y z) fwd name = .error .assertionError ∧
      pyJoint (K := K) i fwd name = .error .assertionError := by
  have hi : ¬ (0 ≤ i ∧ i ≤ 6) := by
    rintro ⟨h0, h6⟩
    have : i = 0 ∨ i = 1 ∨ i = 2 ∨ i = 3 ∨ i = 4 ∨ i = 5 ∨ i = 6 := by omega
    rcases this with rfl | rfl | rfl | rfl | rfl | rfl | rfl
    · exact h .Rev rfl
    · exact h .Prism rfl
    · exact h .Spherical rfl
    · exact h .Planar rfl
    · exact h .Cylindrical rfl
    · exact h .Free rfl
    · exact h .Fixed rfl
  unfold pyJointAxis pyJoint
  exact ⟨if_neg hi, if_neg hi, if_neg hi⟩

/-- C80, what the code does instead: `forward(f)` of a joint takes a number, and every number but zero means forward, `-1` (the value of
`direction()` of a joint that is not forward) included. -/
theorem C80_not_forward (j : Joint K) {f : K} (h : f ≠ 0) : pySetForward j f = j.setForward true ∧ (pySetForward j f).isForward = true := by
  unfold pySetForward
  rw [decide_eq_true h]
  refine ⟨rfl, ?_⟩
  simp [Joint.setForward, Joint.isForward]

private theorem mk'_short {bodies : List (Body K)} {joints : List (Joint K)} (h : joints.length < bodies.length) (pred succ parent : List Int)
    (Xt : List (PTransform K)) : MultiBody.mk' bodies joints pred succ parent Xt = .error .ub := by
  unfold MultiBody.mk'
  obtain ⟨n, hn⟩ : ∃ n, bodies.length = joints.length + 1 + n := ⟨bodies.length - joints.length - 1, by omega⟩
  have hr : List.range bodies.length = List.range joints.length ++ (joints.length :: (List.range n).map (joints.length + 1 + ·)) := by
    rw [hn, List.range_add, List.range_succ, List.append_assoc]; rfl
  rw [hr, List.foldlM_append]
  have step : ∀ (l : List Nat) (m : MultiBody K), m.joints = joints → (∃ m', l.foldlM MultiBody.ctorStep m = .ok m' ∧ m'.joints = joints) ∨
      l.foldlM MultiBody.ctorStep m = .error .ub := by
    intro l
    induction l with
    | nil => intro m hm; exact .inl ⟨m, rfl, hm⟩
    | cons i l ih =>
      intro m hm
      rw [List.foldlM_cons]
      have : (∃ m', MultiBody.ctorStep m i = .ok m' ∧ m'.joints = joints) ∨ MultiBody.ctorStep m i = .error .ub := by
        unfold MultiBody.ctorStep rd wr
        cases m.bodies[i]? with
        | none => exact .inr rfl
        | some b =>
          cases m.joints[i]? with
          | none => exact .inr rfl
          | some j =>
            by_cases h1 : i < m.jointPosInParam.length
            · by_cases h2 : i < m.jointPosInDof.length
              · simp only [if_pos h1, if_pos h2]; exact .inl ⟨_, rfl, hm⟩
              · simp only [if_pos h1, if_neg h2]; exact .inr rfl
            · simp only [if_neg h1]; exact .inr rfl
      rcases this with ⟨m', e, h'⟩ | e
      · rw [e]; exact ih m' h'
      · rw [e]; exact .inr rfl
  rcases step (List.range joints.length) ⟨bodies, joints, pred, succ, parent, Xt, [], [], List.replicate joints.length 0,
      List.replicate joints.length 0, 0, 0⟩ rfl with ⟨m', e, h'⟩ | e
  · rw [e, Res.bind_ok, List.foldlM_cons]
    have : MultiBody.ctorStep m' joints.length = .error .ub := by
      unfold MultiBody.ctorStep
      have : rd m'.joints joints.length = .error .ub := by unfold rd; rw [h', List.getElem?_eq_none (le_refl _)]
      rw [this]
      unfold rd
      cases m'.bodies[joints.length]? <;> rfl
    rw [this]; rfl
  · rw [e]; rfl

/-- C80, what the code does instead: the constructor of `MultiBody` from lists does not check them; with fewer joints than bodies it is not an
exception but undefined behaviour, for all lists. -/
theorem C80_not_multibody {bodies : List (Body K)} {joints : List (Joint K)} (h : joints.length < bodies.length) (pred succ parent : List Int)
    (Xt : List (PTransform K)) : pyMultiBody bodies joints pred succ parent Xt = .error .crash := by
  unfold pyMultiBody
  rw [mk'_short h]
  rfl

/-! ### Converting joints -/

/-- C80, what the code does instead: `ConfigConverter.convertJoint` never returns the converted values: for all converters and arguments it
returns `None`, or fails. -/
theorem C80_not_convert_joint (c : ConfigConverter) (arg : JointArg K) {r : ConvResult K} (h : pyConvertJoint c arg = .ok r) : r = .none := by
  unfold pyConvertJoint at h
  split at h
  · cases h
  · cases h
  · rename_i l _
    cases hc : (c.convertJointNew [] l) <;> rw [hc] at h <;> cases h
    rfl
  · rename_i l _
    cases hc : (c.convertJointNew 0 l) <;> rw [hc] at h <;> cases h
    rfl

/-! ### Constructors of the algorithm objects -/

/-- C80: the constructors with a robot, with an object to copy and without argument are those of C++; two arguments or more are rejected. -/
theorem C80_constructors_partial {α : Type} (dflt a : α) (mk : MultiBody K → CallRes α) (mkW : MultiBody K → List K → CallRes α)
    (mb : MultiBody K) (w : List K) (x y : CtorArg α K) (l : List (CtorArg α K)) :
    ctorRobot dflt mk [] = .ok dflt ∧ ctorRobot dflt mk [.same a] = .ok a ∧ ctorRobot dflt mk [.robot mb] = mk mb ∧
      ctorRobot dflt mk (x :: y :: l) = .error .typeError ∧
      ctorWeights dflt mk mkW [] = .ok dflt ∧ ctorWeights dflt mk mkW [.same a] = .ok a ∧ ctorWeights dflt mk mkW [.robot mb] = mk mb ∧
      ctorWeights dflt mk mkW [.robot mb, .numbers w] = mkW mb w :=
  ⟨rfl, rfl, rfl, by cases x <;> rfl, rfl, rfl, rfl, rfl⟩

/-- C80: `Jacobian(mb, name)` and `Jacobian(mb, name, point)`. The restriction on the name is needed: see `C80_not_text`. -/
theorem C80_jacobian_partial (v : PyVer) (dflt : Jac K) (junk : Nat → MotionVec K) (mb : MultiBody K) (name : PyStr)
    (hv : v = .py2 ∨ ∃ x, name = .bytes x) (p : Vec3 K) :
    SameCall (Jac.mk' junk mb name.chars p) (pyJacobian v dflt junk [.robot mb, .string name, .point p]) ∧
      SameCall (Jac.mk' junk mb name.chars 0) (pyJacobian v dflt junk [.robot mb, .string name]) := by
  unfold pyJacobian pyJacobianOf
  simp only [toStd_ok hv]
  exact ⟨sameCall_py _, sameCall_py _⟩

private theorem only_ub_rd {α : Type} (l : List α) (i : Nat) : (∃ a, rd l i = .ok a) ∨ rd l i = .error .ub := by
  unfold rd; cases l[i]? with
  | some a => exact .inl ⟨a, rfl⟩
  | none => exact .inr rfl

private theorem only_ub_rdI {α : Type} (l : List α) (i : Int) : (∃ a, rdI l i = .ok a) ∨ rdI l i = .error .ub := by
  unfold rdI; split
  · exact .inr rfl
  · exact only_ub_rd _ _

private theorem ub_bind {α β : Type} {x : Res α} {f : α → Res β} (hx : (∃ a, x = .ok a) ∨ x = .error .ub) (hf : ∀ a, f a = .error .ub) :
    (x >>= f) = .error .ub := by
  rcases hx with ⟨a, rfl⟩ | rfl
  · exact hf a
  · rfl

private theorem only_ub_bind {α β : Type} {x : Res α} {f : α → Res β} (hx : (∃ a, x = .ok a) ∨ x = .error .ub)
    (hf : ∀ a, (∃ b, f a = .ok b) ∨ f a = .error .ub) : (∃ b, (x >>= f) = .ok b) ∨ (x >>= f) = .error .ub := by
  rcases hx with ⟨a, rfl⟩ | rfl
  · exact hf a
  · exact .inr rfl

private theorem only_ub_tanAccel (j : Joint K) (a : List K) : (∃ m, j.tanAccel a = .ok m) ∨ j.tanAccel a = .error .ub := by
  unfold Joint.tanAccel
  split <;> (repeat' first
    | exact .inl ⟨_, rfl⟩
    | exact only_ub_rd _ _
    | refine only_ub_bind (only_ub_rd _ _) fun _ => ?_)

private theorem idStep_empty (mb : MultiBody K) (mbc : MBC K) (i : Nat) : idStep mb (⟨[]⟩, mbc) i = .error .ub := by
  unfold idStep
  refine ub_bind (only_ub_rd _ _) fun Xpi => ub_bind (only_ub_rd _ _) fun vj => ub_bind (only_ub_rd _ _) fun j =>
    ub_bind (only_ub_rd _ _) fun ad => ub_bind (only_ub_tanAccel _ _) fun atan => ub_bind (only_ub_rd _ _) fun vb =>
    ub_bind (only_ub_rd _ _) fun pred => ?_
  have rest : ∀ a : MotionVec K, (do
      let bodyAccB ← wr mbc.bodyAccB i a
      let b ← rd mb.bodies i
      let W ← rd mbc.bodyPosW i
      let fe ← rd mbc.force i
      let f ← wr (⟨[]⟩ : ID K).f i (b.inertia.mulMotion a + vb.crossDual (b.inertia.mulMotion vb) - W.dualMul fe)
      return (({ f } : ID K), { mbc with bodyAccB }) : Res (ID K × MBC K)) = .error .ub := by
    intro a
    refine ub_bind ?_ fun acc => ub_bind (only_ub_rd _ _) fun b => ub_bind (only_ub_rd _ _) fun W => ub_bind (only_ub_rd _ _) fun fe => rfl
    unfold wr; split
    · exact .inl ⟨_, rfl⟩
    · exact .inr rfl
  split
  · exact ub_bind (only_ub_rdI _ _) fun a => rest _
  · exact rest _

/-- C80, what the code does instead: the constructors of `InverseDynamics`, `ForwardDynamics` and `IDIM` accept any single argument. If it is
neither a robot nor an object of the class, the object is silently the default-constructed one. For every robot with a body and every state that
another object accepts, `inverseDynamics` of that object is not an exception but undefined behaviour. -/
theorem C80_not_constructor_one {x : CtorArg (ID K) K} (hx : (∀ a, x ≠ .same a) ∧ ∀ mb, x ≠ .robot mb) (mk : MultiBody K → CallRes (ID K)) :
    ctorRobot ⟨[]⟩ mk [x] = .ok ⟨[]⟩ ∧ ∀ (mb : MultiBody K) (mbc : MBC K), mb.bodies ≠ [] →
      (∃ (d : ID K) (r : ID K × MBC K), d.sInverseDynamics mb mbc = .ok r) → pyInverseDynamics ⟨[]⟩ mb mbc = .error .crash := by
  refine ⟨?_, ?_⟩
  · cases x with
    | same a => exact absurd rfl (hx.1 a)
    | robot mb => exact absurd rfl (hx.2 mb)
    | _ => rfl
  · rintro mb mbc hb ⟨d, r, hr⟩
    obtain ⟨_, hc, -⟩ := Res.bind_eq_ok.1 hr
    unfold pyInverseDynamics ID.sInverseDynamics ID.inverseDynamics
    rw [hc, Res.bind_ok]
    have : (List.range mb.bodies.length).foldlM (idStep mb) (⟨[]⟩, mbc) = .error .ub := by
      obtain ⟨n, hn⟩ : ∃ n, mb.bodies.length = n + 1 := ⟨mb.bodies.length - 1, by have := List.length_pos_iff.2 hb; omega⟩
      rw [hn, List.range_succ_eq_map, List.foldlM_cons, idStep_empty]
      rfl
    rw [this]
    rfl

/-- The same for `ForwardDynamics`. -/
theorem C80_not_constructor_forward {x : CtorArg (FD K) K} (hx : (∀ a, x ≠ .same a) ∧ ∀ mb, x ≠ .robot mb) (mk : MultiBody K → CallRes (FD K))
    {dflt : FD K} (hd : dflt.Ist = []) : ctorRobot dflt mk [x] = .ok dflt ∧ ∀ (mb : MultiBody K) (mbc : MBC K), mb.bodies ≠ [] →
      ∀ solve, (∃ (d : FD K) (r : FD K × MBC K), d.sForwardDynamics solve mb mbc = .ok r) → pyForwardDynamics solve dflt mb mbc = .error .crash := by
  refine ⟨?_, ?_⟩
  · cases x with
    | same a => exact absurd rfl (hx.1 a)
    | robot mb => exact absurd rfl (hx.2 mb)
    | _ => rfl
  · rintro mb mbc hb solve ⟨d, r, hr⟩
    suffices dflt.computeH mb mbc = .error .ub by
      unfold FD.sForwardDynamics at hr
      obtain ⟨_, h1, hr⟩ := Res.bind_eq_ok.1 hr
      obtain ⟨_, h2, hr⟩ := Res.bind_eq_ok.1 hr
      obtain ⟨_, h3, hr⟩ := Res.bind_eq_ok.1 hr
      obtain ⟨_, h4, hr⟩ := Res.bind_eq_ok.1 hr
      obtain ⟨_, h5, hr⟩ := Res.bind_eq_ok.1 hr
      obtain ⟨_, h6, hr⟩ := Res.bind_eq_ok.1 hr
      obtain ⟨_, h7, hr⟩ := Res.bind_eq_ok.1 hr
      obtain ⟨_, h8, hr⟩ := Res.bind_eq_ok.1 hr
      unfold pyForwardDynamics FD.sForwardDynamics FD.forwardDynamics
      rw [h1, Res.bind_ok, h2, Res.bind_ok, h3, Res.bind_ok, h4, Res.bind_ok, h5, Res.bind_ok, h6, Res.bind_ok, h7, Res.bind_ok, h8,
        Res.bind_ok, this]
      rfl
    unfold FD.computeH
    simp only
    obtain ⟨n, hn⟩ : ∃ n, mb.bodies.length = n + 1 := ⟨mb.bodies.length - 1, by have := List.length_pos_iff.2 hb; omega⟩
    rw [hn, List.range_succ_eq_map, List.foldlM_cons]
    have : rd mb.bodies 0 = .ok (mb.bodies[0]'(by omega)) := rd_ok (by omega)
    simp only [this, Res.bind_ok, wr, hd]
    rfl

/-- C80, what the code does instead: the constructors of `CoMJacobianDummy`, `CoMJacobian` and `CentroidalMomentumMatrix` accept any arguments
after the robot. If they are not one list of weights, the object is silently the default-constructed one. -/
theorem C80_not_constructor_weights {α : Type} (dflt : α) (mk : MultiBody K → CallRes α) (mkW : MultiBody K → List K → CallRes α)
    (mb : MultiBody K) {x : CtorArg α K} {l : List (CtorArg α K)} (h : l ≠ [] ∨ ∀ w, x ≠ .numbers w) :
    ctorWeights dflt mk mkW (.robot mb :: x :: l) = .ok dflt := by
  cases l with
  | cons y l => cases x <;> rfl
  | nil =>
    cases x with
    | numbers w => rcases h with h | h
                   · exact absurd rfl h
                   · exact absurd rfl (h w)
    | _ => rfl

/-- C80, what the code does instead: the constructor of `Jacobian` accepts any arguments after the robot and the name. If they are not one point,
the object is silently the default-constructed one, also for an unknown name. For every robot and every state that another object accepts, `jacobian` of
that object is not an exception but undefined behaviour. -/
theorem C80_not_jacobian_constructor (v : PyVer) (junk0 : Jac K) (junk : Nat → MotionVec K) (mb : MultiBody K) (n x : CtorArg (Jac K) K)
    (l : List (CtorArg (Jac K) K)) (h : l ≠ [] ∨ ∀ p, x ≠ .point p) :
    pyJacobian v (Jac.default junk0) junk (.robot mb :: n :: x :: l) = .ok (Jac.default junk0) ∧
      ∀ (mb : MultiBody K) (mbc : MBC K), (∃ J r : Jac K, J.sJacobian mb mbc = .ok r) →
        pyJacobianCall (Jac.default junk0) mb mbc = .error .crash := by
  refine ⟨?_, ?_⟩
  · cases l with
    | cons y l => cases x <;> rfl
    | nil =>
      cases x with
      | point p => rcases h with h | h
                   · exact absurd rfl h
                   · exact absurd rfl (h p)
      | _ => rfl
  · rintro mb mbc ⟨J, r, hr⟩
    obtain ⟨_, h1, hr⟩ := Res.bind_eq_ok.1 hr
    obtain ⟨_, h2, -⟩ := Res.bind_eq_ok.1 hr
    unfold pyJacobianCall Jac.sJacobian
    rw [h1, Res.bind_ok, h2, Res.bind_ok]
    rfl

end

/-! ### The sample graph and the sample robot -/

open Graph

/-- Building: the third link of the sample graph, with names of both kinds. -/
example : SameEdit (linkBodies "base" Sample.gX "arm" 1 "elbow" true Sample.gs) (pyLinkBodies (.text "base") Sample.gX (.bytes "arm") 1 (.text "elbow")
    true Sample.gs) := C80_link_bodies (.text "base") (.bytes "arm") (.text "elbow") Sample.gX 1 true Sample.gs

/-- In python 3 a joint can be removed if its name is given as `bytes`. -/
example : ∃ s', pyRemoveJoint .py3 (.bytes "hand") (.bytes "shoulder") Sample.gs = .ok () s' ∧
    Pruned Sample.gs.1 Sample.gs.2 2 ["shoulder"] s'.1 s'.2 := by
  obtain ⟨h', g', e, P, -⟩ := C18_removeJoint Sample.gs_tree Sample.gs_hand (fun b hb => Sample.gs_noRoot 2 b hb) "shoulder"
  have h := C80_remove_joint_partial .py3 (.bytes "hand") (.bytes "shoulder") (.inr ⟨_, _, rfl, rfl⟩) Sample.gs
  simp only [PyStr.chars] at h
  rw [e] at h
  generalize pyRemoveJoint .py3 (.bytes "hand") (.bytes "shoulder") Sample.gs = r at h ⊢
  cases h
  exact ⟨_, rfl, P⟩

/-- `removeJoints` removes two joints of the sample graph in python 2 and none in python 3. -/
example : (∃ s', pyRemoveJoints .py2 (.text "hand") (.list [some (.text "slide"), some (.text "shoulder")]) Sample.gs = .ok () s' ∧
      Pruned Sample.gs.1 Sample.gs.2 2 ["slide", "shoulder"] s'.1 s'.2) ∧
    pyRemoveJoints .py3 (.text "hand") (.list [some (.text "slide"), some (.text "shoulder")]) Sample.gs = .error .typeError Sample.gs := by
  refine ⟨?_, (C80_not_remove_joints _ _ _).2 _ _ rfl⟩
  obtain ⟨h', g', e, P⟩ := C18_removeJoints Sample.gs_tree Sample.gs_hand (fun b hb => Sample.gs_noRoot 2 b hb) ["slide", "shoulder"]
  have h := C80_remove_joints_partial (.text "hand") [.text "slide", .text "shoulder"] (by simp) Sample.gs
  simp only [PyStr.chars, List.map_cons, List.map_nil] at h
  rw [e] at h
  generalize pyRemoveJoints .py2 (.text "hand") (.list [some (.text "slide"), some (.text "shoulder")]) Sample.gs = r at h ⊢
  cases h
  exact ⟨_, rfl, P⟩

/-- `mergeSubBodies` merges in python 2 and does not in python 3; a call with an unknown body ends the program in python 2. -/
example : (∃ s', pyMergeSubBodies .py2 (.text "hand") (.text "slide") (.dict [(.text "slide", .list [(3 : ℚ)])]) Sample.gs = .ok () s' ∧
      s' ≠ Sample.gs) ∧
    pyMergeSubBodies .py3 (.text "hand") (.text "slide") (.dict [(.text "slide", .list [(3 : ℚ)])]) Sample.gs = .error .typeError Sample.gs ∧
    pyMergeSubBodies .py2 (.text "nobody") (.text "slide") (.dict [(.text "slide", .list [(3 : ℚ)])]) Sample.gs = .error .crash Sample.gs := by
  refine ⟨?_, C80_not_merge _ _ _ _, (C80_not_merge_exceptions (.text "nobody") (.text "slide") [("slide", [3])] (by simp) (by simp) Sample.gs
    (by decide +kernel)).2⟩
  obtain ⟨m, hm, h⟩ := C80_merge_partial (.text "hand") (.text "slide") [("slide", [(3 : ℚ)])] (by simp) (by simp)
  have : ∃ s', pyMergeSubBodies .py2 (.text "hand") (.text "slide") (.dict [(.text "slide", .list [(3 : ℚ)])]) Sample.gs = .ok () s' ∧
      decide (s' ≠ Sample.gs) = true := by
    have key : (match pyMergeSubBodies .py2 (.text "hand") (.text "slide") (.dict [(.text "slide", .list [(3 : ℚ)])]) Sample.gs with
      | .ok _ s' => decide (s' ≠ Sample.gs)
      | .error _ _ => false) = true := by decide +kernel
    generalize pyMergeSubBodies .py2 (.text "hand") (.text "slide") (.dict [(.text "slide", .list [(3 : ℚ)])]) Sample.gs = r at key ⊢
    cases r with
    | ok a s' => exact ⟨s', rfl, key⟩
    | error e s' => cases key
  obtain ⟨s', e, hs⟩ := this
  exact ⟨s', e, of_decide_eq_true hs⟩

/-- C80, what the code does instead: `Coriolis` has no checked version, so a state with missing vectors is not an exception but undefined
behaviour, where `InverseDynamics` raises `ValueError`. -/
theorem C80_not_coriolis : ∃ (c : Cor ℚ) (mbc : MBC ℚ), Cor.mk' (fun _ => 0) (fun _ _ => 0) Sample.mb = .ok c ∧
    pyCoriolis c Sample.mb mbc = .error .crash ∧ pyInverseDynamics Sample.id Sample.mb mbc = .error .valueError := by
  have h : (match Cor.mk' (fun _ => 0) (fun _ _ => 0) Sample.mb with
    | .ok c => (match c.coriolis Sample.mb { Sample.mbcV with bodyVelW := [] } with
      | .error .ub => true
      | _ => false)
    | .error _ => false) = true := by decide +kernel
  cases hc : Cor.mk' (fun _ => 0) (fun _ _ => 0) Sample.mb with
  | error e => rw [hc] at h; cases h
  | ok c =>
    rw [hc] at h
    refine ⟨c, { Sample.mbcV with bodyVelW := [] }, rfl, ?_, ?_⟩
    · unfold pyCoriolis
      simp only at h
      generalize c.coriolis Sample.mb { Sample.mbcV with bodyVelW := [] } = r at h ⊢
      cases r with
      | ok a => cases h
      | error e => cases e <;> first | rfl | cases h
    · unfold pyInverseDynamics
      rw [(C51_inverse_dynamics Sample.wf _ (by decide +kernel)).2]
      · rfl
      · unfold MBC.IDShape SizedDof
        decide +kernel

/-- The robot seen from the hand, with a free root joint and with a revolute one. -/
example : SameCall (makeMultiBody Sample.gs.1 Sample.gs.2 "hand" .Free ⟨0, 0, 1⟩ Sample.gX 1)
      (pyMakeMultiBody Sample.gs.1 Sample.gs.2 (.text "hand") [.bool false, .transform Sample.gX]) ∧
    SameCall (makeMultiBody Sample.gs.1 Sample.gs.2 "hand" .Prism ⟨0, 1, 0⟩ 1 1)
      (pyMakeMultiBody Sample.gs.1 Sample.gs.2 (.bytes "hand") [.int 1, .vector3 ⟨0, 1, 0⟩]) :=
  ⟨C80_make_multibody _ _ (.text "hand") (.free1 _), C80_make_multibody _ _ (.bytes "hand") (.axis0 .Prism _)⟩

example : pyMakeMultiBody Sample.gs.1 Sample.gs.2 (.text "hand") [.int 7, .vector3 ⟨0, 1, 0⟩] = .error .crash ∧
    pyMakeMultiBody Sample.gs.1 Sample.gs.2 (.text "hand") [.bool true, .vector3 ⟨0, 1, 0⟩] = .error .typeError := ⟨rfl, rfl⟩

example : SameCall (bodiesBaseTransform Sample.gs.1 Sample.gs.2 "hand" Sample.gX) (pyBodiesBaseTransform .py3 Sample.gs.1 Sample.gs.2 (.bytes "hand")
    Sample.gX) := (C80_queries_partial .py3 _ _ (.bytes "hand") (.inr ⟨_, rfl⟩) _).1

example : (pySetForward (Joint.mk' .Rev ⟨1, 0, 0⟩ false "j" : Joint ℚ) (-1)).isForward = true := (C80_not_forward _ (by norm_num)).2

example : pyJoint (K := ℚ) 7 true (.text "j") = .error .assertionError :=
  (C80_joint_rejected 7 (fun t => by cases t <;> decide) (0 : Vec3 ℚ) 0 0 0 true (.text "j")).2.2

example : pyMultiBody [Sample.base] [] [-1] [0] [-1] [1] = .error .crash := C80_not_multibody (by simp) _ _ _ _

/-- The converter of the sample robot to itself converts and returns nothing. -/
example : ∃ c, ConfigConverter.mk' Sample.mb Sample.mb = .ok c ∧ pyConvertJoint c (.numbers [(1 : ℚ), 2, 3, 4]) = .ok .none := by
  refine ⟨⟨[1, 2, 3], [0, 1, 2, 3]⟩, by decide +kernel, by decide +kernel⟩

/-- The python object `InverseDynamics(mbc)` instead of `InverseDynamics(mb)`. -/
example : ctorRobot (⟨[]⟩ : ID ℚ) (fun mb => .ok (ID.mk' (fun _ => 0) mb)) [.other] = .ok ⟨[]⟩ ∧
    pyInverseDynamics ⟨[]⟩ Sample.mb Sample.mbcV = .error .crash := by
  obtain ⟨h1, h2⟩ := C80_not_constructor_one (x := .other) ⟨by simp, by simp⟩ (fun mb : MultiBody ℚ => .ok (ID.mk' (fun _ => 0) mb))
  obtain ⟨r, hr⟩ := (C51_inverse_dynamics Sample.wf _ (by decide +kernel : Sample.id.f.length = Sample.mb.nrBodies)).1 Sample.id_shape
  exact ⟨h1, h2 _ _ (by decide +kernel) ⟨_, r, hr⟩⟩

example : pyForwardDynamics (fun m _ => List.replicate m.cols 0) { Sample.fd with Ist := [] } Sample.mb Sample.mbcV = .error .crash := by
  obtain ⟨ha, hf, hC, hvj, hW, hX, hV, hS, hA, ht⟩ := Sample.id_shape
  obtain ⟨r, hr⟩ := (C51_forward_dynamics Sample.wf _ Sample.fd_fits (solve := fun m _ => List.replicate m.cols 0) (by simp)).1
    ⟨⟨hX, hS, hvj, hV, hW, hf⟩, ht, ha⟩
  exact (C80_not_constructor_forward (x := .other) ⟨by simp, by simp⟩ (fun _ => .error .crash) rfl).2 _ _ (by decide +kernel) _ ⟨_, r, hr⟩

example : ctorWeights 0 (fun _ => .ok 1) (fun _ _ => .ok 2) [.robot Sample.mb, .point 0] = .ok 0 :=
  C80_not_constructor_weights 0 _ _ _ (.inr (by simp))

/-- A `Jacobian` with a list instead of a `Vector3d` as point. -/
example : pyJacobian .py2 (Jac.default Sample.handJac) (fun _ => 0) [.robot Sample.mb, .string (.text "hand"), .numbers [1, 2, 3]] =
      .ok (Jac.default Sample.handJac) ∧ pyJacobianCall (Jac.default Sample.handJac) Sample.mb Sample.mbcV = .error .crash := by
  obtain ⟨J, hJ, hof⟩ := C34_constructor Sample.wf (fun _ => 0) (N := 2) (name := "hand") (by decide +kernel) (by decide +kernel) ⟨1, 2, 3⟩
  obtain ⟨ha, hf, hC, hvj, hW, hX, hV, hS, hA, ht⟩ := Sample.id_shape
  have hne : J.path ≠ [] := by rw [hof.path_eq]; decide +kernel
  have href : J.refBodyIndex < Sample.mb.nrBodies := by rw [hof.ref]; decide +kernel
  obtain ⟨r, hr⟩ := ((C51_jacobian Sample.wf _ hof.toFits hne href 1 0).1 ⟨hW, hS⟩).1
  obtain ⟨h1, h2⟩ := C80_not_jacobian_constructor .py2 Sample.handJac (fun _ => 0) Sample.mb (.string (.text "hand")) (.numbers [1, 2, 3]) []
    (.inr (by simp))
  exact ⟨h1, h2 _ _ ⟨J, r, hr⟩⟩

example : SameCall (Jac.mk' (fun _ => 0) Sample.mb "hand" (⟨1, 2, 3⟩ : Vec3 ℚ))
    (pyJacobian .py3 Sample.handJac (fun _ => 0) [.robot Sample.mb, .string (.bytes "hand"), .point ⟨1, 2, 3⟩]) :=
  (C80_jacobian_partial .py3 _ _ _ (.bytes "hand") (.inr ⟨_, rfl⟩) _).1

end RBDyn
