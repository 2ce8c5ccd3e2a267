import Verif.Lemmas.Parsers

/-! What the reader of URDF documents builds. -/

namespace RBDyn
variable {K : Type} [Scalar K]

namespace Graph

/-- Adding bodies and then joints to an empty graph. -/
def assemble (bs : List (Body K)) (es : List (Edge K)) : Res (GSt K) := do
  let s ← bs.foldlM (fun s b => runG (Graph.addBody b) s) (⟨[], []⟩, Graph.empty)
  es.foldlM addLink s

theorem assembled_of_ok {bs : List (Body K)} {es : List (Edge K)} {s : GSt K} (h : assemble bs es = .ok s) :
    Assembled bs es s := by
  unfold assemble at h
  obtain ⟨s1, e1, e2⟩ := Res.bind_eq_ok.1 h
  have A1 : Assembled bs [] s1 :=
    foldlM_ok_inv (P := fun pre s => Assembled pre [] s) Assembled.init (fun pre b s s' A e => A.of_addBody e) e1
  exact foldlM_ok_inv (P := fun pre s => Assembled bs pre s) A1 (fun pre e s s' A h => A.of_addLink h) e2

theorem assemble_ok {bs : List (Body K)} {es : List (Edge K)} (hb : (bs.map Body.name).Nodup)
    (hj : (es.map (fun e => e.j.name)).Nodup)
    (hk : ∀ e ∈ es, e.parent ∈ bs.map Body.name ∧ e.child ∈ bs.map Body.name) :
    ∃ s, assemble bs es = .ok s ∧ Assembled bs es s := by
  have h1 : ∀ (l pre : List (Body K)) (s : GSt K), pre ++ l = bs → Assembled pre [] s →
      ∃ s', l.foldlM (fun s b => runG (Graph.addBody b) s) s = .ok s' ∧ Assembled bs [] s' := by
    intro l
    induction l with
    | nil => intro pre s e A; rw [List.append_nil] at e; subst e; exact ⟨s, rfl, A⟩
    | cons b l ih =>
      intro pre s e A
      have hn : b.name ∉ pre.map Body.name := by
        rw [← e, List.map_append, List.map_cons, List.nodup_append] at hb
        intro hm
        exact hb.2.2 b.name hm b.name (List.mem_cons_self ..) rfl
      obtain ⟨e1, A1⟩ := A.addBody b hn
      obtain ⟨s', e2, A2⟩ := ih (pre ++ [b]) _ (by simp [e]) A1
      refine ⟨s', ?_, A2⟩
      rw [List.foldlM_cons, runG, e1]
      exact e2
  have h2 : ∀ (l pre : List (Edge K)) (s : GSt K), pre ++ l = es → Assembled bs pre s →
      ∃ s', l.foldlM addLink s = .ok s' ∧ Assembled bs es s' := by
    intro l
    induction l with
    | nil => intro pre s e A; rw [List.append_nil] at e; subst e; exact ⟨s, rfl, A⟩
    | cons b l ih =>
      intro pre s e A
      have hn : b.j.name ∉ pre.map (fun e => e.j.name) := by
        rw [← e, List.map_append, List.map_cons, List.nodup_append] at hj
        intro hm
        exact hj.2.2 b.j.name hm b.j.name (List.mem_cons_self ..) rfl
      have hb := hk b (by rw [← e]; simp)
      obtain ⟨s1, e1, A1⟩ := A.addLink b hn hb.1 hb.2
      obtain ⟨s', e2, A2⟩ := ih (pre ++ [b]) _ (by simp [e]) A1
      refine ⟨s', ?_, A2⟩
      rw [List.foldlM_cons, e1]
      exact e2
  obtain ⟨s1, e1, A1⟩ := h1 bs [] _ rfl Assembled.init
  obtain ⟨s2, e2, A2⟩ := h2 es [] s1 rfl A1
  exact ⟨s2, by unfold assemble; rw [e1]; exact e2, A2⟩

end Graph

open Graph

/-- A joint read from a document, with its limits. -/
abbrev REdge (K : Type) := Edge K × JLimits K

/-- The loop adding joints changes the graph and the limits independently. -/
theorem addEdges_iff {l : List (REdge K)} {s s' : PSt K} :
    l.foldlM (fun s e => addEdge s e.1.parent e.1.child e.1.X e.1.j e.2) s = .ok s' ↔
      (l.map Prod.fst).foldlM addLink s.1 = .ok s'.1 ∧
      l.foldl (fun lim e => lim.set e.1.j.name e.2) s.2 = s'.2 := by
  induction l generalizing s with
  | nil =>
    simp only [List.foldlM_nil, List.map_nil, List.foldl_nil]
    constructor
    · intro h; obtain rfl : s = s' := by simpa using h
      exact ⟨rfl, rfl⟩
    · rintro ⟨h1, h2⟩
      have h1 : s.1 = s'.1 := by simpa using h1
      rw [Prod.ext h1 h2]; rfl
  | cons e l ih =>
    rw [List.foldlM_cons, List.map_cons, List.foldlM_cons, List.foldl_cons]
    have hE : addEdge s e.1.parent e.1.child e.1.X e.1.j e.2 =
        (addLink s.1 e.1 >>= fun g => pure (g, s.2.set e.1.j.name e.2)) := by
      unfold addEdge addLink
      simp [bind_assoc]
    rw [hE]
    cases h : addLink s.1 e.1 with
    | error er => simp
    | ok g =>
      simp only [Res.bind_ok]
      rw [show (pure (g, s.2.set e.1.j.name e.2) : Res (PSt K)) = .ok (g, s.2.set e.1.j.name e.2) from rfl, Res.bind_ok, ih]

/-- The loop adding bodies leaves the limits alone. -/
theorem addBodies_iff {l : List (Body K)} {s s' : PSt K} :
    l.foldlM (fun s b => do let g ← runG (Graph.addBody b) s.1; return (g, s.2)) s = .ok s' ↔
      l.foldlM (fun s b => runG (Graph.addBody b) s) s.1 = .ok s'.1 ∧ s.2 = s'.2 := by
  induction l generalizing s with
  | nil =>
    simp only [List.foldlM_nil]
    constructor
    · intro h; obtain rfl : s = s' := by simpa using h
      exact ⟨rfl, rfl⟩
    · rintro ⟨h1, h2⟩
      have h1 : s.1 = s'.1 := by simpa using h1
      rw [Prod.ext h1 h2]; rfl
  | cons e l ih =>
    rw [List.foldlM_cons, List.foldlM_cons]
    cases h : runG (Graph.addBody e) s.1 with
    | error er => simp
    | ok g =>
      simp only [Res.bind_ok]
      rw [show (pure (g, s.2) : Res (PSt K)) = .ok (g, s.2) from rfl, Res.bind_ok, ih]

/-- The state reached after adding bodies and joints. -/
theorem build_iff {bs : List (Body K)} {es : List (REdge K)} {s : PSt K} :
    (∃ s1, bs.foldlM (fun s b => do let g ← runG (Graph.addBody b) s.1; return (g, s.2)) (PSt.init K) = .ok s1 ∧
        es.foldlM (fun s e => addEdge s e.1.parent e.1.child e.1.X e.1.j e.2) s1 = .ok s) ↔
      assemble bs (es.map Prod.fst) = .ok s.1 ∧
      es.foldl (fun lim e => lim.set e.1.j.name e.2) ⟨[], [], [], []⟩ = s.2 := by
  constructor
  · rintro ⟨s1, e1, e2⟩
    rw [addBodies_iff] at e1
    rw [addEdges_iff] at e2
    refine ⟨?_, ?_⟩
    · unfold assemble
      rw [show ((⟨[], []⟩, Graph.empty) : GSt K) = (PSt.init K).1 from rfl, e1.1]
      exact e2.1
    · rw [← e2.2, ← e1.2]; rfl
  · rintro ⟨h1, h2⟩
    unfold assemble at h1
    obtain ⟨g, e1, e2⟩ := Res.bind_eq_ok.1 h1
    exact ⟨(g, ⟨[], [], [], []⟩), addBodies_iff.2 ⟨e1, rfl⟩, addEdges_iff.2 ⟨e2, h2⟩⟩

/-! ### URDF -/

/-- The link is read. -/
def XLink.kept (params : ParserParams) (l : XLink K) : Bool :=
  !(l.inertial.isNone && params.removeVirtual) && !(decide (l.name ∈ params.filtered) && params.removeFiltered)

theorem foldl_splitLink (params : ParserParams) (L : List (XLink K)) (s : LinkSplit K) :
    L.foldl (splitLink params) s =
      ⟨s.links ++ L.filter (XLink.kept params),
       s.fixed ++ (L.filter (fun l => l.kept params && decide (l.name ∈ params.filtered))).map XLink.name,
       s.removed ++ (L.filter (fun l => !l.kept params)).map XLink.name⟩ := by
  induction L generalizing s with
  | nil => simp
  | cons l L ih =>
    rw [List.foldl_cons, ih]
    unfold splitLink
    by_cases h1 : (l.inertial.isNone && params.removeVirtual) = true
    · have hk : l.kept params = false := by unfold XLink.kept; rw [h1]; rfl
      rw [if_pos h1]
      simp [hk]
    · rw [if_neg h1]
      rw [Bool.not_eq_true] at h1
      by_cases h2 : l.name ∈ params.filtered
      · rw [if_pos h2]
        by_cases h3 : params.removeFiltered = true
        · have hk : l.kept params = false := by unfold XLink.kept; simp [h1, h2, h3]
          rw [if_pos h3]
          simp [hk]
        · have hk : l.kept params = true := by
            unfold XLink.kept; rw [Bool.not_eq_true] at h3; simp [h1, h2, h3]
          rw [if_neg h3]
          simp [hk, h2]
      · have hk : l.kept params = true := by unfold XLink.kept; simp [h1, h2]
        rw [if_neg h2]
        simp [hk, h2]

/-- Some link of this name is not read. -/
def goneX (params : ParserParams) (L : List (XLink K)) (n : String) : Bool :=
  L.any (fun l => !l.kept params && decide (l.name = n))

/-- Some link of this name is read although its name is filtered. -/
def fixedX (params : ParserParams) (L : List (XLink K)) (n : String) : Bool :=
  L.any (fun l => l.kept params && decide (l.name = n) && decide (n ∈ params.filtered))

/-- The joints kept, with their types. -/
def readJointsX (params : ParserParams) (L : List (XLink K)) (J : List (XJoint K)) : List (XJoint K) :=
  (J.filter (fun j => !goneX params L j.parent && !goneX params L j.child)).map
    (fun j => if fixedX params L j.child then { j with type := "fixed" } else j)

theorem foldl_keepJoint (params : ParserParams) (L : List (XLink K)) (J acc : List (XJoint K)) :
    J.foldl (keepJoint (L.foldl (splitLink params) ⟨[], [], []⟩)) acc = acc ++ readJointsX params L J := by
  have hr : ∀ n, n ∈ (L.foldl (splitLink params) ⟨[], [], []⟩).removed ↔ goneX params L n = true := by
    intro n
    rw [foldl_splitLink]
    simp [goneX, and_assoc]
  have hf : ∀ n, n ∈ (L.foldl (splitLink params) ⟨[], [], []⟩).fixed ↔ fixedX params L n = true := by
    intro n
    rw [foldl_splitLink]
    simp [fixedX]
    constructor
    · rintro ⟨l, ⟨h1, h2, h3⟩, rfl⟩; exact ⟨l, h1, ⟨h2, rfl⟩, h3⟩
    · rintro ⟨l, h1, ⟨h2, rfl⟩, h3⟩; exact ⟨l, ⟨h1, h2, h3⟩, rfl⟩
  generalize L.foldl (splitLink params) ⟨[], [], []⟩ = sp at hr hf
  induction J generalizing acc with
  | nil => simp [readJointsX]
  | cons j J ih =>
    rw [List.foldl_cons, ih]
    unfold keepJoint readJointsX
    simp only [hr, hf]
    by_cases h1 : goneX params L j.parent = true
    · simp [h1]
    · by_cases h2 : goneX params L j.child = true
      · simp [h2]
      · simp [h1, h2]

/-- The joint read from an element. -/
def urdfEdge (env : ParserEnv K) (params : ParserParams) (j : XJoint K) : Res (REdge K) := do
  let X ← urdfOrigin j.origin
  let jt := urdfJoint env params j
  return (⟨j.parent, j.child, X, jt⟩, urdfLimits j jt)

theorem forall₂_read_unique {γ δ : Type _} {f : γ → Res δ} {l : List γ} {a b : List δ}
    (ha : List.Forall₂ (fun x y => f x = .ok y) l a) (hb : List.Forall₂ (fun x y => f x = .ok y) l b) : a = b := by
  induction ha generalizing b with
  | nil => cases hb; rfl
  | cons h _ ih =>
    cases hb with
    | cons h' hb' =>
      rw [h] at h'
      rw [Except.ok.inj h', ih hb']

/-- What a successful reading means. -/
theorem parseURDF_iff (env : ParserEnv K) (params : ParserParams) (robot : XRobot K) (name base : String) (s : PSt K) :
    parseURDF env (some robot) params = .ok (name, base, s) ↔
      robot.name = some name ∧
      (∃ l ∈ (robot.links.filter (XLink.kept params)).head?,
        base = if params.baseLink = "" then l.name else params.baseLink) ∧
      ∃ bs es, List.Forall₂ (fun l b => urdfBody params l = .ok b) (robot.links.filter (XLink.kept params)) bs ∧
        List.Forall₂ (fun j e => urdfEdge env params j = .ok e) (readJointsX params robot.links robot.joints) es ∧
        assemble bs (es.map Prod.fst) = .ok s.1 ∧
        es.foldl (fun lim e => lim.set e.1.j.name e.2) ⟨[], [], [], []⟩ = s.2 := by
  have hL : ∀ s0 s1 : PSt K, (robot.links.filter (XLink.kept params)).foldlM (urdfAddLink params) s0 = .ok s1 ↔
      ∃ bs, List.Forall₂ (fun l b => urdfBody params l = .ok b) (robot.links.filter (XLink.kept params)) bs ∧
        bs.foldlM (fun s b => do let g ← runG (Graph.addBody b) s.1; return (g, s.2)) s0 = .ok s1 := by
    intro s0 s1
    rw [← foldlM_read]; rfl
  have hJ : ∀ s0 s1 : PSt K, (readJointsX params robot.links robot.joints).foldlM (urdfAddJoint env params) s0 = .ok s1 ↔
      ∃ es, List.Forall₂ (fun j e => urdfEdge env params j = .ok e) (readJointsX params robot.links robot.joints) es ∧
        es.foldlM (fun s e => addEdge s e.1.parent e.1.child e.1.X e.1.j e.2) s0 = .ok s1 := by
    intro s0 s1
    rw [← foldlM_read]
    have : (urdfAddJoint env params : PSt K → XJoint K → Res (PSt K)) =
        fun s x => (do
          let e ← urdfEdge env params x
          addEdge s e.1.parent e.1.child e.1.X e.1.j e.2) := by
      funext s x
      unfold urdfAddJoint urdfEdge
      simp [bind_assoc]
    rw [this]
  unfold parseURDF
  simp only [Res.bind_ok]
  rw [foldl_keepJoint, List.nil_append]
  rw [show (robot.links.foldl (splitLink params) ⟨[], [], []⟩).links = robot.links.filter (XLink.kept params) by
    rw [foldl_splitLink]; rfl]
  cases hn : robot.name with
  | none => simp
  | some n =>
    cases hc : robot.links.filter (XLink.kept params) with
    | nil => simp
    | cons f rest =>
      rw [hc] at hL
      simp only [Res.bind_ok]
      constructor
      · intro h
        obtain ⟨s1, e1, h⟩ := Res.bind_eq_ok.1 h
        obtain ⟨s2, e2, h⟩ := Res.bind_eq_ok.1 h
        have h := Except.ok.inj h
        obtain ⟨hn', h⟩ := Prod.mk.inj h
        obtain ⟨hb', hs'⟩ := Prod.mk.inj h
        subst hs'
        obtain ⟨bs, hbs, e1⟩ := (hL _ _).1 e1
        obtain ⟨es, hes, e2⟩ := (hJ _ _).1 e2
        exact ⟨by rw [hn'], ⟨f, rfl, hb'.symm⟩, bs, es, hbs, hes, build_iff.1 ⟨s1, e1, e2⟩⟩
      · rintro ⟨hn, ⟨f', hf, hb⟩, bs, es, hbs, hes, hA⟩
        obtain rfl : f = f' := Option.some_inj.1 hf
        obtain ⟨s1, e1, e2⟩ := build_iff.2 hA
        rw [(hL _ _).2 ⟨bs, hbs, e1⟩, Res.bind_ok, (hJ _ _).2 ⟨es, hes, e2⟩, hb, Option.some_inj.1 hn]
        rfl

theorem urdfBody_name {params : ParserParams} {l : XLink K} {b : Body K} (h : urdfBody params l = .ok b) :
    b.name = l.name := by
  unfold urdfBody at h
  cases hi : l.inertial with
  | none => rw [hi] at h; rw [← Except.ok.inj h]; rfl
  | some i =>
    rw [hi] at h
    dsimp only at h
    obtain ⟨_, -, h⟩ := Res.bind_eq_ok.1 h
    cases hm : i.mass with
    | none => rw [hm] at h; simp at h
    | some m =>
      cases hI : i.inertia with
      | none => rw [hm, hI] at h; simp at h
      | some I =>
        rw [hm, hI] at h
        simp only [Res.bind_ok] at h
        rw [← Except.ok.inj h]; rfl

theorem urdfJoint_name (env : ParserEnv K) (params : ParserParams) (j : XJoint K) :
    (urdfJoint env params j).name = j.name := by
  unfold urdfJoint
  dsimp only
  split <;> split <;> (try split) <;> rfl

theorem urdfJoint_type (env : ParserEnv K) (params : ParserParams) (j : XJoint K) :
    (urdfJoint env params j).type = urdfJointType j.type (hasSuffix j.name params.sphericalSuffix) := by
  unfold urdfJoint
  dsimp only
  split <;> split <;> (try split) <;> rfl

theorem urdfEdge_spec {env : ParserEnv K} {params : ParserParams} {j : XJoint K} {e : REdge K}
    (h : urdfEdge env params j = .ok e) :
    urdfOrigin j.origin = .ok e.1.X ∧ e.1.parent = j.parent ∧ e.1.child = j.child ∧ e.1.j = urdfJoint env params j ∧
      e.2 = urdfLimits j e.1.j := by
  unfold urdfEdge at h
  obtain ⟨X, hX, h⟩ := Res.bind_eq_ok.1 h
  rw [← Except.ok.inj h]
  exact ⟨hX, rfl, rfl, rfl, rfl⟩

theorem forall₂_exists {γ δ : Type _} {R : γ → δ → Prop} {l : List γ} {m : List δ} (h : List.Forall₂ R l m) :
    ∀ x ∈ l, ∃ y ∈ m, R x y := by
  induction h with
  | nil => simp
  | cons h _ ih =>
    intro x hx
    rcases List.mem_cons.1 hx with rfl | hx
    · exact ⟨_, List.mem_cons_self .., h⟩
    · obtain ⟨y, hy, e⟩ := ih x hx
      exact ⟨y, List.mem_cons_of_mem _ hy, e⟩

theorem forall₂_map {γ δ ε : Type _} {R : γ → δ → Prop} {f : γ → ε} {g : δ → ε} {l : List γ} {m : List δ}
    (h : List.Forall₂ R l m) (hfg : ∀ x y, R x y → g y = f x) : m.map g = l.map f := by
  induction h with
  | nil => rfl
  | cons h _ ih => rw [List.map_cons, List.map_cons, hfg _ _ h, ih]

end RBDyn
