import Verif.Model.Visuals
import Verif.Lemmas.YAML
import Verif.Lemmas.RoundTripX

/-! Lemmas about the visual and collision elements of robot descriptions. -/

namespace RBDyn
variable {K : Type}

/-- The map has exactly the lists `L n` that are not empty. -/
def VMap.Holds (m : VMap K) (L : String → List (Visual K)) : Prop := ∀ n, SMap.find m n = if L n = [] then none else some (L n)

theorem VMap.holds_nil : VMap.Holds ([] : VMap K) fun _ => [] := fun _ => rfl

theorem VMap.Holds.push {m : VMap K} {L : String → List (Visual K)} (h : m.Holds L) (name : String) (v : Visual K) :
    (m.push name v).Holds fun n => L n ++ if n = name then [v] else [] := by
  intro n
  unfold VMap.push
  rw [SMap.find_set]
  by_cases e : n = name
  · subst e
    simp only [if_true, h n]
    by_cases hn : L n = [] <;> simp [hn]
  · simp [e, h n]

/-- The value, if there is one. -/
def Res.val? {α : Type} (r : Res (Option α)) : Option α := match r with | .ok o => o | .error _ => none

/-- One turn of a loop that appends what is read. -/
def pushWith {D : Type} (f : D → Res (Option (Visual K))) (name : String) (data : VMap K) (d : D) : Res (VMap K) := do
  let v ← f d
  match v with
  | some v => return data.push name v
  | none => return data

theorem pushWith_ok {D : Type} {f : D → Res (Option (Visual K))} {d : D} {o : Option (Visual K)} (h : f d = .ok o) {m : VMap K}
    {L : String → List (Visual K)} (hm : m.Holds L) (name : String) :
    ∃ m', pushWith f name m d = .ok m' ∧ m'.Holds fun n => L n ++ if n = name then [d].filterMap (fun d => (f d).val?) else [] := by
  unfold pushWith
  rw [h, Res.bind_ok]
  cases o with
  | none => exact ⟨m, rfl, fun n => by simpa [List.filterMap, h, Res.val?] using hm n⟩
  | some v =>
    refine ⟨m.push name v, rfl, ?_⟩
    have := hm.push name v
    simpa [List.filterMap, h, Res.val?] using this

theorem pushWith_fold {D : Type} {f : D → Res (Option (Visual K))} (name : String) :
    ∀ {l : List D} {m : VMap K} {L : String → List (Visual K)}, m.Holds L → (∀ d ∈ l, ∃ o, f d = .ok o) →
    ∃ m', l.foldlM (pushWith f name) m = .ok m' ∧
      m'.Holds fun n => L n ++ if n = name then l.filterMap (fun d => (f d).val?) else []
  | [], m, L, hm, _ => ⟨m, rfl, fun n => by simpa using hm n⟩
  | d :: l, m, L, hm, hl => by
    obtain ⟨o, ho⟩ := hl d (List.mem_cons_self ..)
    obtain ⟨m1, h1, hm1⟩ := pushWith_ok ho hm name
    obtain ⟨m2, h2, hm2⟩ := pushWith_fold name hm1 fun e he => hl e (List.mem_cons_of_mem _ he)
    refine ⟨m2, by rw [List.foldlM_cons, h1]; exact h2, fun n => ?_⟩
    rw [hm2 n]
    beta_reduce
    have : (L n ++ (if n = name then [d].filterMap (fun d => (f d).val?) else [])) ++
        (if n = name then l.filterMap (fun d => (f d).val?) else []) =
        L n ++ if n = name then (d :: l).filterMap (fun d => (f d).val?) else [] := by
      by_cases e : n = name
      · rw [if_pos e, if_pos e, if_pos e, List.append_assoc, ← List.filterMap_append]; rfl
      · simp [e]
    rw [this]

theorem pushWith_all {D : Type} {f : D → Res (Option (Visual K))} (name : String) :
    ∀ {l : List D} {m m' : VMap K}, l.foldlM (pushWith f name) m = .ok m' → ∀ d ∈ l, ∃ o, f d = .ok o
  | [], _, _, _, d, hd => absurd hd List.not_mem_nil
  | e :: l, m, m', h, d, hd => by
    rw [List.foldlM_cons] at h
    cases he : f e with
    | error x => simp [pushWith, he, bind, Except.bind] at h
    | ok o =>
      have : ∃ m1, pushWith f name m e = .ok m1 := by
        unfold pushWith
        rw [he, Res.bind_ok]
        cases o <;> exact ⟨_, rfl⟩
      obtain ⟨m1, h1⟩ := this
      rw [h1, Res.bind_ok] at h
      rcases List.mem_cons.1 hd with rfl | hd
      · exact ⟨o, he⟩
      · exact pushWith_all name h d hd

/-- What a link contributes: its name, its visual elements and its collision elements. -/
structure VItem (D : Type) where
  name : String
  visuals : List D
  collisions : List D

/-- The elements of the links of that name. -/
def VItem.of {D : Type} (part : VItem D → List D) (items : List (VItem D)) (n : String) : List D :=
  (items.filter fun i => i.name = n).flatMap part

/-- The loop over the links. -/
def gatherStep {D : Type} (f : D → Res (Option (Visual K))) (s : VMap K × VMap K) (i : VItem D) : Res (VMap K × VMap K) := do
  let visual ← i.visuals.foldlM (pushWith f i.name) s.1
  let collision ← i.collisions.foldlM (pushWith f i.name) s.2
  return (visual, collision)

theorem VItem.of_cons {D : Type} (part : VItem D → List D) (i : VItem D) (items : List (VItem D)) (n : String) :
    VItem.of part (i :: items) n = (if n = i.name then part i else []) ++ VItem.of part items n := by
  unfold VItem.of
  by_cases e : n = i.name
  · subst e; simp
  · rw [List.filter_cons_of_neg (by simpa using fun h => e h.symm), if_neg e]; rfl

theorem gather_ok {D : Type} {f : D → Res (Option (Visual K))} :
    ∀ {items : List (VItem D)} {s : VMap K × VMap K} {L M : String → List (Visual K)}, s.1.Holds L → s.2.Holds M →
    (∀ i ∈ items, ∀ d ∈ i.visuals ++ i.collisions, ∃ o, f d = .ok o) →
    ∃ s', items.foldlM (gatherStep f) s = .ok s' ∧
      s'.1.Holds (fun n => L n ++ (VItem.of VItem.visuals items n).filterMap fun d => (f d).val?) ∧
      s'.2.Holds (fun n => M n ++ (VItem.of VItem.collisions items n).filterMap fun d => (f d).val?)
  | [], s, L, M, hL, hM, _ => ⟨s, rfl, fun n => by simpa [VItem.of] using hL n, fun n => by simpa [VItem.of] using hM n⟩
  | i :: items, s, L, M, hL, hM, h => by
    obtain ⟨v, hv, hv'⟩ := pushWith_fold i.name hL fun d hd => h i (List.mem_cons_self ..) d (List.mem_append_left _ hd)
    obtain ⟨c, hc, hc'⟩ := pushWith_fold i.name hM fun d hd => h i (List.mem_cons_self ..) d (List.mem_append_right _ hd)
    have hs : gatherStep f s i = .ok (v, c) := by
      unfold gatherStep
      rw [hv, Res.bind_ok, hc]; rfl
    obtain ⟨s', h1, h2, h3⟩ := gather_ok (s := (v, c)) hv' hc' fun j hj => h j (List.mem_cons_of_mem _ hj)
    refine ⟨s', by rw [List.foldlM_cons, hs]; exact h1, fun n => ?_, fun n => ?_⟩
    · rw [h2 n]
      beta_reduce
      rw [VItem.of_cons, List.filterMap_append, ← List.append_assoc]
      by_cases e : n = i.name <;> simp [e]
    · rw [h3 n]
      beta_reduce
      rw [VItem.of_cons, List.filterMap_append, ← List.append_assoc]
      by_cases e : n = i.name <;> simp [e]

theorem gather_all {D : Type} {f : D → Res (Option (Visual K))} :
    ∀ {items : List (VItem D)} {s s' : VMap K × VMap K}, items.foldlM (gatherStep f) s = .ok s' →
    ∀ i ∈ items, ∀ d ∈ i.visuals ++ i.collisions, ∃ o, f d = .ok o
  | [], _, _, _, i, hi => absurd hi List.not_mem_nil
  | j :: items, s, s', h, i, hi => by
    rw [List.foldlM_cons] at h
    cases hv : j.visuals.foldlM (pushWith f j.name) s.1 with
    | error x => simp [gatherStep, hv, bind, Except.bind] at h
    | ok v =>
      cases hc : j.collisions.foldlM (pushWith f j.name) s.2 with
      | error x => simp [gatherStep, hv, hc, bind, Except.bind] at h
      | ok c =>
        have hs : gatherStep f s j = .ok (v, c) := by
          unfold gatherStep
          rw [hv, Res.bind_ok, hc]; rfl
        rw [hs, Res.bind_ok] at h
        rcases List.mem_cons.1 hi with rfl | hi
        · intro d hd
          rcases List.mem_append.1 hd with hd | hd
          · exact pushWith_all _ hv d hd
          · exact pushWith_all _ hc d hd
        · exact gather_all h i hi

variable [Scalar K]

/-- The links kept with their elements. -/
def xItems (params : ParserParams) (links : List (XVLink K)) : List (VItem (XVisual K)) :=
  (links.filter (keepXVLink params)).map fun l => ⟨l.link.name, l.visuals, l.collisions⟩

theorem urdfVisuals_eq (params : ParserParams) (materials : List (XMaterial K)) (links : List (XVLink K)) :
    urdfVisuals params materials links =
      (xItems params links).foldlM (gatherStep (visualFromTag (materials.foldl cacheMaterial []))) ([], []) := by
  unfold urdfVisuals xItems
  rw [List.foldlM_map]
  rfl

/-- The links read with their names and their elements, numbered from `i`. -/
def yItems (params : ParserParams) : Nat → List (YVLink K) → List (VItem (YVisual K))
  | _, [] => []
  | i, l :: ls =>
    let n : NLink K := ⟨l.link.name.getD ("link" ++ toString i), l.link.inertial⟩
    if n.kept params then ⟨n.name, l.visuals, l.collisions⟩ :: yItems params (i + 1) ls else yItems params i ls

theorem yamlLinks_eq (env : ParserEnv K) (params : ParserParams) (d : Bool) (cache : SMap (Material K)) :
    ∀ (links : List (YVLink K)) (s : YVSt K),
    (links.foldlM (yamlLinkVisuals env params d cache) s >>= fun s => pure (f := Res) (s.visual, s.collision)) =
      (yItems params s.linkIdx links).foldlM (gatherStep (yamlVisual env d cache)) (s.visual, s.collision)
  | [], _ => rfl
  | l :: ls, s => by
    rw [List.foldlM_cons]
    unfold yItems yamlLinkVisuals NLink.kept
    dsimp only
    by_cases h1 : (params.removeVirtual && l.link.inertial.isNone) = true
    · rw [if_pos h1, if_neg (by simp [h1])]
      exact yamlLinks_eq env params d cache ls s
    · rw [if_neg h1]
      by_cases h2 : (decide (l.link.name.getD ("link" ++ toString s.linkIdx) ∈ params.filtered) && params.removeFiltered) = true
      · rw [if_pos h2, if_neg (by rw [h2]; simp)]
        exact yamlLinks_eq env params d cache ls s
      · rw [if_neg h2, if_pos (by
          rw [Bool.not_eq_true] at h1 h2
          rw [h1, h2]; rfl), List.foldlM_cons]
        unfold gatherStep
        have hp : ∀ n, yamlPush env d cache n = pushWith (K := K) (yamlVisual env d cache) n := fun _ => rfl
        simp only [hp]
        cases hv : l.visuals.foldlM (pushWith (yamlVisual env d cache) (l.link.name.getD ("link" ++ toString s.linkIdx))) s.visual with
        | error x => rfl
        | ok v =>
          cases hc : l.collisions.foldlM (pushWith (yamlVisual env d cache) (l.link.name.getD ("link" ++ toString s.linkIdx)))
              s.collision with
          | error x => rfl
          | ok c => exact yamlLinks_eq env params d cache ls ⟨s.linkIdx + 1, v, c⟩

theorem yamlVisuals_eq (env : ParserEnv K) (params : ParserParams) (d : Bool) (materials : List (YMaterial K)) (links : List (YVLink K)) :
    yamlVisuals env params d materials links = (materials.foldlM yamlCache [] >>= fun cache =>
      (yItems params 1 links).foldlM (gatherStep (yamlVisual env d cache)) ([], [])) := by
  unfold yamlVisuals
  congr 1
  funext cache
  exact yamlLinks_eq env params d cache links ⟨1, [], []⟩

end RBDyn
