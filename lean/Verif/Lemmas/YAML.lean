import Verif.Lemmas.URDF

/-! What the reader of YAML documents builds. -/

namespace RBDyn
open Graph
variable {K : Type}

/-- A link with its name, given or by default. -/
structure NLink (K : Type) where
  name : String
  inertial : Option (YInertial K)

/-- The link is read. -/
def NLink.kept (params : ParserParams) (l : NLink K) : Bool :=
  !(params.removeVirtual && l.inertial.isNone) && !(decide (l.name ∈ params.filtered) && params.removeFiltered)

/-- The links with their names: a link without a name is called `link` followed by its rank among the links read. -/
def nameLinks (params : ParserParams) : Nat → List (YLink K) → List (NLink K)
  | _, [] => []
  | i, l :: ls =>
    let n : NLink K := ⟨l.name.getD ("link" ++ toString i), l.inertial⟩
    n :: nameLinks params (if n.kept params then i + 1 else i) ls

/-- A joint with the names of the joint, of its parent and of its child, given or by default. -/
structure NJoint (K : Type) where
  name : String
  parent : String
  child : String
  j : YJoint K

/-- The joints with their names; `gone` says which links are not read. -/
def nameJoints (gone : String → Bool) : Nat → List (YJoint K) → List (NJoint K)
  | _, [] => []
  | i, j :: js =>
    let n : NJoint K := ⟨j.name.getD ("joint" ++ toString i), j.parent.getD ("link" ++ toString i),
      j.child.getD ("link" ++ toString (i + 1)), j⟩
    n :: nameJoints gone (if gone n.child || gone n.parent then i else i + 1) js

variable [Scalar K]

/-- The links read. -/
def keptLinks (params : ParserParams) (i : Nat) (L : List (YLink K)) : List (NLink K) :=
  (nameLinks params i L).filter (NLink.kept params)

/-- Loop over the links. -/
theorem foldlM_yamlLink (env : ParserEnv K) (params : ParserParams) (d : Bool) (L : List (YLink K)) (s : YSt K) :
    L.foldlM (yamlLink env params d) s =
      ((keptLinks params s.linkIdx L).foldlM (fun (st : PSt K) l => (do
        let b ← yamlBody env params d l.name l.inertial
        let g ← runG (Graph.addBody b) st.1
        return (g, st.2))) s.st >>= fun st =>
      .ok { linkIdx := s.linkIdx + (keptLinks params s.linkIdx L).length
            jointIdx := s.jointIdx
            removed := s.removed ++ ((nameLinks params s.linkIdx L).filter (fun l => !l.kept params)).map NLink.name
            fixed := s.fixed ++ ((keptLinks params s.linkIdx L).filter (fun l => l.name ∈ params.filtered)).map NLink.name
            base := (keptLinks params s.linkIdx L).foldl (fun b l => if b = "" then l.name else b) s.base
            st := st }) := by
  induction L generalizing s with
  | nil => simp [keptLinks, nameLinks]
  | cons l L ih =>
    rw [List.foldlM_cons]
    generalize hF : List.foldlM (yamlLink env params d) = F at ih ⊢
    unfold yamlLink
    dsimp only
    generalize hn : l.name.getD ("link" ++ toString s.linkIdx) = n
    have hnl : nameLinks params s.linkIdx (l :: L) = ⟨n, l.inertial⟩ ::
        nameLinks params (if (⟨n, l.inertial⟩ : NLink K).kept params then s.linkIdx + 1 else s.linkIdx) L := by
      rw [nameLinks, hn]
    by_cases h1 : (params.removeVirtual && l.inertial.isNone) = true
    · have hk : (⟨n, l.inertial⟩ : NLink K).kept params = false := by unfold NLink.kept; rw [h1]; rfl
      rw [if_pos h1]
      rw [hk, if_neg (by simp)] at hnl
      have hkl : keptLinks params s.linkIdx (l :: L) = keptLinks params s.linkIdx L := by
        unfold keptLinks; rw [hnl, List.filter_cons, hk]; rfl
      rw [hkl, hnl, List.filter_cons, hk]
      show (Except.ok _ >>= _) = _
      rw [Res.bind_ok, ih]
      simp
    · rw [if_neg h1]
      by_cases h2 : (decide (n ∈ params.filtered) && params.removeFiltered) = true
      · have hk : (⟨n, l.inertial⟩ : NLink K).kept params = false := by unfold NLink.kept; dsimp only; rw [h2]; simp
        rw [if_pos h2]
        rw [hk, if_neg (by simp)] at hnl
        have hkl : keptLinks params s.linkIdx (l :: L) = keptLinks params s.linkIdx L := by
          unfold keptLinks; rw [hnl, List.filter_cons, hk]; rfl
        rw [hkl, hnl, List.filter_cons, hk]
        show (Except.ok _ >>= _) = _
        rw [Res.bind_ok, ih]
        simp
      · rw [Bool.not_eq_true] at h1 h2
        have hk : (⟨n, l.inertial⟩ : NLink K).kept params = true := by
          unfold NLink.kept; dsimp only; rw [h1, h2]; rfl
        rw [if_neg (by rw [h2]; simp)]
        rw [hk, if_pos rfl] at hnl
        have hkl : keptLinks params s.linkIdx (l :: L) = ⟨n, l.inertial⟩ :: keptLinks params (s.linkIdx + 1) L := by
          unfold keptLinks; rw [hnl, List.filter_cons, hk]; rfl
        rw [hkl, hnl, List.foldlM_cons, List.filter_cons (p := fun l => !NLink.kept params l), hk]
        cases hb : yamlBody env params d n l.inertial with
        | error e => simp
        | ok b =>
          simp only [Res.bind_ok]
          cases hg : runG (Graph.addBody b) s.st.1 with
          | error e => simp
          | ok g =>
            simp only [Res.bind_ok]
            show (Except.ok _ >>= _) = ((Except.ok _ >>= _) >>= _)
            rw [Res.bind_ok, ih, Res.bind_ok]
            dsimp only
            congr 1
            funext st
            congr 2
            · simp; omega
            · by_cases hf : n ∈ params.filtered <;> simp [hf]

/-- Loop over the joints. -/
theorem foldlM_yamlJoint (env : ParserEnv K) (params : ParserParams) (d : Bool) (gone : String → Bool)
    (J : List (YJoint K)) (s : YSt K) (hg : ∀ n, n ∈ s.removed ↔ gone n = true) :
    J.foldlM (yamlJoint env params d) s =
      (((nameJoints gone s.jointIdx J).filter (fun j => !(gone j.child || gone j.parent))).foldlM (fun (st : PSt K) j => (do
        let tc ← yamlType params j.j.type j.name (j.child ∈ s.fixed)
        let axis ← yamlAxis j.j.axis
        let f ← yamlFrame env d j.j.frame
        let jt := Joint.mk' tc.1 axis true j.name
        let lim ← yamlLimits env d j.j.limits jt tc.2
        addEdge st j.parent j.child ⟨yamlRPY f.2.x f.2.y f.2.z, f.1⟩ jt lim)) s.st >>= fun st =>
      .ok { s with jointIdx := s.jointIdx + ((nameJoints gone s.jointIdx J).filter (fun j => !(gone j.child || gone j.parent))).length
                   st := st }) := by
  induction J generalizing s with
  | nil => simp [nameJoints]
  | cons j J ih =>
    rw [List.foldlM_cons, nameJoints]
    generalize hF : List.foldlM (yamlJoint env params d) = F at ih ⊢
    unfold yamlJoint
    dsimp only
    generalize j.name.getD ("joint" ++ toString s.jointIdx) = n
    generalize j.parent.getD ("link" ++ toString s.jointIdx) = p
    generalize j.child.getD ("link" ++ toString (s.jointIdx + 1)) = c
    simp only [hg, Bool.decide_eq_true]
    by_cases h : (gone c || gone p) = true
    · rw [if_pos h, if_pos h, List.filter_cons_of_neg (by simp [h])]
      show (Except.ok s >>= _) = _
      rw [Res.bind_ok, ih s hg]
    · rw [if_neg h, if_neg h, List.filter_cons_of_pos (by simpa using h), List.foldlM_cons]
      dsimp only
      cases ht : yamlType params j.type n (decide (c ∈ s.fixed)) with
      | error e => simp
      | ok tc =>
        simp only [Res.bind_ok]
        cases ha : yamlAxis j.axis with
        | error e => simp
        | ok axis =>
          simp only [Res.bind_ok]
          cases hf : yamlFrame env d j.frame with
          | error e => simp
          | ok f =>
            simp only [Res.bind_ok]
            cases hl : yamlLimits env d j.limits (Joint.mk' tc.1 axis true n) tc.2 with
            | error e => simp
            | ok lim =>
              simp only [Res.bind_ok]
              cases he : addEdge s.st p c ⟨yamlRPY f.2.x f.2.y f.2.z, f.1⟩ (Joint.mk' tc.1 axis true n) lim with
              | error e => simp
              | ok st1 =>
                simp only [Res.bind_ok]
                show (Except.ok _ >>= _) = _
                rw [Res.bind_ok]
                have := ih { s with st := st1, jointIdx := s.jointIdx + 1 } hg
                dsimp only at this
                rw [this]
                congr 1
                funext st
                congr 2
                simp; omega

/-- Some link of this name is not read. -/
def goneY (params : ParserParams) (L : List (YLink K)) (n : String) : Bool :=
  (nameLinks params 1 L).any (fun l => !l.kept params && decide (l.name = n))

/-- Some link of this name is read although its name is filtered. -/
def fixedY (params : ParserParams) (L : List (YLink K)) (n : String) : Bool :=
  (keptLinks params 1 L).any (fun l => decide (l.name = n) && decide (n ∈ params.filtered))

/-- The joints read. -/
def readJointsY (params : ParserParams) (L : List (YLink K)) (J : List (YJoint K)) : List (NJoint K) :=
  (nameJoints (goneY params L) 1 J).filter (fun j => !(goneY params L j.child || goneY params L j.parent))

/-- The joint read from an element. -/
def yamlEdge (env : ParserEnv K) (params : ParserParams) (d : Bool) (fixed : String → Bool) (j : NJoint K) :
    Res (REdge K) := do
  let tc ← yamlType params j.j.type j.name (fixed j.child)
  let axis ← yamlAxis j.j.axis
  let f ← yamlFrame env d j.j.frame
  let jt := Joint.mk' tc.1 axis true j.name
  let lim ← yamlLimits env d j.j.limits jt tc.2
  return (⟨j.parent, j.child, ⟨yamlRPY f.2.x f.2.y f.2.z, f.1⟩, jt⟩, lim)

/-- The base link by default: the first link read that has a name. -/
def firstNamed (L : List (NLink K)) : String := L.foldl (fun b l => if b = "" then l.name else b) ""

/-- What a successful reading means. -/
theorem parseYAML_iff (env : ParserEnv K) (params : ParserParams) (robot : YRobot K) (name base : String) (s : PSt K) :
    parseYAML env (some robot) params = .ok (name, base, s) ↔
      robot.name = some name ∧ ∃ L d J, robot.links = some L ∧ robot.degrees = some d ∧ robot.joints = some J ∧
      base = (if params.baseLink ≠ "" then params.baseLink else firstNamed (keptLinks params 1 L)) ∧
      ∃ bs es, List.Forall₂ (fun l b => yamlBody env params d l.name l.inertial = .ok b) (keptLinks params 1 L) bs ∧
        List.Forall₂ (fun j e => yamlEdge env params d (fixedY params L) j = .ok e) (readJointsY params L J) es ∧
        assemble bs (es.map Prod.fst) = .ok s.1 ∧
        es.foldl (fun lim e => lim.set e.1.j.name e.2) ⟨[], [], [], []⟩ = s.2 := by
  unfold parseYAML
  obtain ⟨rn, rd, rl, rj⟩ := robot
  cases rn with
  | none => simp
  | some n =>
    cases rl with
    | none => simp
    | some L =>
      cases rd with
      | none => simp
      | some d =>
        have hgone : ∀ m : String, m ∈ ([] : List String) ++
            ((nameLinks params 1 L).filter (fun l => !l.kept params)).map NLink.name ↔ goneY params L m = true := by
          intro m
          simp [goneY, and_assoc]
        have hfix : ∀ m : String, decide (m ∈ ([] : List String) ++
            ((keptLinks params 1 L).filter (fun l => l.name ∈ params.filtered)).map NLink.name) = fixedY params L m := by
          intro m
          rw [Bool.eq_iff_iff, decide_eq_true_iff]
          simp [fixedY, and_assoc]
          constructor
          · rintro ⟨l, h1, h2, rfl⟩; exact ⟨l, h1, rfl, h2⟩
          · rintro ⟨l, h1, rfl, h2⟩; exact ⟨l, h1, h2, rfl⟩
        simp only [Res.bind_ok, foldlM_yamlLink, bind_assoc]
        cases rj with
        | none =>
          constructor
          · intro h
            obtain ⟨s1, -, h⟩ := Res.bind_eq_ok.1 h
            simp at h
          · rintro ⟨-, L', d', J', -, -, h, -⟩; cases h
        | some J =>
          simp only [Res.bind_ok]
          have hL : ∀ s0 s1 : PSt K, (keptLinks params 1 L).foldlM (fun (st : PSt K) l => (do
              let b ← yamlBody env params d l.name l.inertial
              let g ← runG (Graph.addBody b) st.1
              return (g, st.2))) s0 = .ok s1 ↔
              ∃ bs, List.Forall₂ (fun l b => yamlBody env params d l.name l.inertial = .ok b) (keptLinks params 1 L) bs ∧
                bs.foldlM (fun s b => do let g ← runG (Graph.addBody b) s.1; return (g, s.2)) s0 = .ok s1 := by
            intro s0 s1
            rw [← foldlM_read]
          have hJ : ∀ s0 s1 : PSt K, (readJointsY params L J).foldlM (fun (st : PSt K) j => (do
              let tc ← yamlType params j.j.type j.name (fixedY params L j.child)
              let axis ← yamlAxis j.j.axis
              let f ← yamlFrame env d j.j.frame
              let jt := Joint.mk' tc.1 axis true j.name
              let lim ← yamlLimits env d j.j.limits jt tc.2
              addEdge st j.parent j.child ⟨yamlRPY f.2.x f.2.y f.2.z, f.1⟩ jt lim)) s0 = .ok s1 ↔
              ∃ es, List.Forall₂ (fun j e => yamlEdge env params d (fixedY params L) j = .ok e) (readJointsY params L J) es ∧
                es.foldlM (fun s e => addEdge s e.1.parent e.1.child e.1.X e.1.j e.2) s0 = .ok s1 := by
            intro s0 s1
            rw [← foldlM_read]
            have : (fun (st : PSt K) (j : NJoint K) => (do
                let tc ← yamlType params j.j.type j.name (fixedY params L j.child)
                let axis ← yamlAxis j.j.axis
                let f ← yamlFrame env d j.j.frame
                let jt := Joint.mk' tc.1 axis true j.name
                let lim ← yamlLimits env d j.j.limits jt tc.2
                addEdge st j.parent j.child ⟨yamlRPY f.2.x f.2.y f.2.z, f.1⟩ jt lim)) =
              fun s x => (do
                let e ← yamlEdge env params d (fixedY params L) x
                addEdge s e.1.parent e.1.child e.1.X e.1.j e.2) := by
              funext s x
              unfold yamlEdge
              simp [bind_assoc]
            rw [this]
          constructor
          · intro h
            obtain ⟨s1, e1, h⟩ := Res.bind_eq_ok.1 h
            rw [foldlM_yamlJoint _ _ _ (goneY params L) _ _ hgone] at h
            simp only [hfix] at h
            obtain ⟨s2, e2, h⟩ := Res.bind_eq_ok.1 h
            obtain ⟨s3, e3, e4⟩ := Res.bind_eq_ok.1 e2
            obtain rfl := Except.ok.inj e4
            have h := Except.ok.inj h
            obtain ⟨hn', h⟩ := Prod.mk.inj h
            obtain ⟨hb', hs'⟩ := Prod.mk.inj h
            dsimp only at hs' hb'
            subst hs'
            obtain ⟨bs, hbs, e1⟩ := (hL _ _).1 e1
            obtain ⟨es, hes, e3⟩ := (hJ _ _).1 e3
            exact ⟨by rw [hn'], L, d, J, rfl, rfl, rfl, hb'.symm, bs, es, hbs, hes, build_iff.1 ⟨s1, e1, e3⟩⟩
          · rintro ⟨hn', L', d', J', hL', hd', hJ', hb, bs, es, hbs, hes, hA⟩
            obtain rfl := Option.some_inj.1 hL'
            obtain rfl := Option.some_inj.1 hd'
            obtain rfl := Option.some_inj.1 hJ'
            obtain ⟨s1, e1, e2⟩ := build_iff.2 hA
            rw [(hL _ _).2 ⟨bs, hbs, e1⟩, Res.bind_ok, foldlM_yamlJoint _ _ _ (goneY params L) _ _ hgone]
            simp only [hfix]
            have := (hJ _ _).2 ⟨es, hes, e2⟩
            unfold readJointsY at this
            rw [this]
            rw [hb, Option.some_inj.1 hn']
            rfl

theorem yamlBody_name {env : ParserEnv K} {params : ParserParams} {d : Bool} {n : String} {i : Option (YInertial K)}
    {b : Body K} (h : yamlBody env params d n i = .ok b) : b.name = n := by
  unfold yamlBody at h
  cases i with
  | none => rw [← Except.ok.inj h]; rfl
  | some i =>
    dsimp only at h
    obtain ⟨_, -, h⟩ := Res.bind_eq_ok.1 h
    rw [← Except.ok.inj h]; rfl

theorem yamlEdge_spec {env : ParserEnv K} {params : ParserParams} {d : Bool} {fixed : String → Bool} {j : NJoint K}
    {e : REdge K} (h : yamlEdge env params d fixed j = .ok e) :
    ∃ tc axis f, yamlType params j.j.type j.name (fixed j.child) = .ok tc ∧ yamlAxis j.j.axis = .ok axis ∧
      yamlFrame env d j.j.frame = .ok f ∧
      e.1 = ⟨j.parent, j.child, ⟨yamlRPY f.2.x f.2.y f.2.z, f.1⟩, Joint.mk' tc.1 axis true j.name⟩ ∧
      yamlLimits env d j.j.limits (Joint.mk' tc.1 axis true j.name) tc.2 = .ok e.2 := by
  unfold yamlEdge at h
  obtain ⟨tc, h1, h⟩ := Res.bind_eq_ok.1 h
  obtain ⟨axis, h2, h⟩ := Res.bind_eq_ok.1 h
  obtain ⟨f, h3, h⟩ := Res.bind_eq_ok.1 h
  obtain ⟨lim, h4, h⟩ := Res.bind_eq_ok.1 h
  rw [← Except.ok.inj h]
  exact ⟨tc, axis, f, h1, h2, h3, rfl, h4⟩

end RBDyn
