import Verif.Model.Entry
import Verif.Props.Conv

/-!
C69: the functions that read a robot from a text or from a file, in C++ and in python, with options or positional arguments,
are the same reader, and `from_file` chooses the format by the extension.
-/

namespace RBDyn

/-! ### The extension -/

/-- The path ends with a dot and the extension; a path without any dot counts as its own extension. -/
def HasExtension (path ext : String) : Prop := (∃ stem : String, path = stem ++ "." ++ ext) ∨ path = ext

private theorem ext_iff {l e : List Char} (he : '.' ∉ e) :
    (l.reverse.takeWhile (· != '.')).reverse = e ↔ (∃ s, l = s ++ '.' :: e) ∨ l = e := by
  constructor
  · intro h
    have h1 := List.takeWhile_append_dropWhile (p := (· != '.')) (l := l.reverse)
    have h2 : l = (l.reverse.dropWhile (· != '.')).reverse ++ e := by
      rw [← h, ← List.reverse_append, h1, List.reverse_reverse]
    cases hd : l.reverse.dropWhile (· != '.') with
    | nil =>
      rw [hd] at h2
      exact .inr (by simpa using h2)
    | cons d ds =>
      have hd' : d = '.' := by
        have := List.head?_dropWhile_not (p := (· != '.')) (l := l.reverse)
        rw [hd] at this
        simpa using this
      subst hd'
      rw [hd] at h2
      exact .inl ⟨ds.reverse, by simpa using h2⟩
  · have key : ∀ r : List Char, (e.reverse ++ '.' :: r).takeWhile (· != '.') = e.reverse := by
      intro r
      rw [List.takeWhile_append_of_pos]
      · simp
      · intro c hc
        simp only [bne_iff_ne, ne_eq]
        rintro rfl
        exact he (List.mem_reverse.1 hc)
    rintro (⟨s, rfl⟩ | rfl)
    · rw [List.reverse_append, List.reverse_cons, List.append_assoc, List.singleton_append, key, List.reverse_reverse]
    · have : l.reverse.takeWhile (· != '.') = l.reverse := by
        rw [List.takeWhile_eq_self_iff]
        intro c hc
        simp only [bne_iff_ne, ne_eq]
        rintro rfl
        exact he (List.mem_reverse.1 hc)
      rw [this, List.reverse_reverse]

private theorem ext_string {path ext : String} (he : '.' ∉ ext.toList) :
    (path.toList.reverse.takeWhile (· != '.')).reverse = ext.toList ↔ HasExtension path ext := by
  rw [ext_iff he]
  refine or_congr ⟨?_, ?_⟩ String.toList_inj
  · rintro ⟨s, h⟩
    refine ⟨String.ofList s, String.toList_inj.1 ?_⟩
    simp [h]
  · rintro ⟨s, rfl⟩
    exact ⟨s.toList, by simp⟩

/-- C69: `from_file` takes the YAML reader exactly for the paths that end in `.yaml` or `.yml` (or are one of these words), the
URDF reader exactly for those that end in `.urdf` (or are this word), and throws `std::runtime_error` exactly for all others. -/
theorem C69_extension (path : String) :
    (fileFormat path = .ok .yaml ↔ HasExtension path "yaml" ∨ HasExtension path "yml") ∧
    (fileFormat path = .ok .urdf ↔ HasExtension path "urdf") ∧
    (fileFormat path = .error .runtimeError ↔
      ¬ HasExtension path "yaml" ∧ ¬ HasExtension path "yml" ∧ ¬ HasExtension path "urdf") ∧
    ∀ e, fileFormat path = .error e → e = .runtimeError := by
  have h1 := ext_string (path := path) (ext := "yaml") (by decide)
  have h2 := ext_string (path := path) (ext := "yml") (by decide)
  have h3 := ext_string (path := path) (ext := "urdf") (by decide)
  have n1 : ("yaml".toList) ≠ "urdf".toList := by decide
  have n2 : ("yml".toList) ≠ "urdf".toList := by decide
  rw [← h1, ← h2, ← h3]
  unfold fileFormat
  dsimp only
  generalize (path.toList.reverse.takeWhile (· != '.')).reverse = x
  by_cases a : x = "yaml".toList
  · subst a; simp
  by_cases b : x = "yml".toList
  · subst b; simp
  by_cases c : x = "urdf".toList
  · subst c; simp
  simp only [a, b, c]
  simp

/-! ### One reader -/

variable {K : Type} [Scalar K]

/-- The options that positional arguments stand for. -/
def IsPositional (p : ParserParams) (fixed : Bool) (filtered : List String) (transformInertia : Bool) (baseLink : String)
    (withVirtual : Bool) (sphericalSuffix : String) : Prop :=
  p.fixed = fixed ∧ p.filtered = filtered ∧ p.transformInertia = transformInertia ∧ p.baseLink = baseLink ∧
    p.removeVirtual = !withVirtual ∧ p.sphericalSuffix = sphericalSuffix ∧ p.removeFiltered = true

/-- C69: a file that can be opened is read like its text, one that cannot throws `std::runtime_error`; `from_file` is the reader
of the extension. -/
theorem C69_file (env : ParserEnv K) (F : Formats K) (fs : Files) (path : String) (p : ParserParams) :
    (∀ s, fs.read path = some s →
      fromURDFFile env F fs path p = fromURDFText env F s.data p ∧ fromYAMLFile env F fs path p = fromYAMLText env F s.data p) ∧
    (fs.read path = none →
      fromURDFFile env F fs path p = .error .runtimeError ∧ fromYAMLFile env F fs path p = .error .runtimeError ∧
      fromFile env F fs path p = .error .runtimeError) ∧
    (HasExtension path "yaml" ∨ HasExtension path "yml" → fromFile env F fs path p = fromYAMLFile env F fs path p) ∧
    (HasExtension path "urdf" → fromFile env F fs path p = fromURDFFile env F fs path p) ∧
    (¬ HasExtension path "yaml" ∧ ¬ HasExtension path "yml" ∧ ¬ HasExtension path "urdf" →
      fromFile env F fs path p = .error .runtimeError) ∧
    fromYAMLText env F = fun content p => fromYAMLDoc env (F.parseY content) p := by
  obtain ⟨x1, x2, x3, x4⟩ := C69_extension path
  refine ⟨fun s h => ?_, fun h => ?_, fun h => ?_, fun h => ?_, fun h => ?_, ?_⟩
  · simp only [fromURDFFile, fromYAMLFile, h, fromYAMLText, and_self]
  · refine ⟨by simp only [fromURDFFile, h], by simp only [fromYAMLFile, h], ?_⟩
    unfold fromFile
    cases hf : fileFormat path with
    | error e => rw [x4 e hf]; rfl
    | ok f => cases f <;> simp only [Res.bind_ok, fromYAMLFile, fromURDFFile, h]
  · simp only [fromFile, x1.2 h, Res.bind_ok]
  · simp only [fromFile, x2.2 h, Res.bind_ok]
  · simp only [fromFile, x3.2 h, Res.bind_error]
  · funext content p
    cases p
    simp [fromYAMLText, yamlCtorParams]

/-- C69: the overloads with positional arguments read with the options of the same names, where links without inertia are removed
exactly when they are not wanted, and where filtered links are removed. -/
theorem C69_positional (env : ParserEnv K) (F : Formats K) (fs : Files) (fixed : Bool) (filtered : List String)
    (transformInertia : Bool) (baseLink : String) (withVirtual : Bool) (suffix : String) (p : ParserParams)
    (hp : IsPositional p fixed filtered transformInertia baseLink withVirtual suffix) (content : Text) (path : String) :
    fromURDFTextPos env F content fixed filtered transformInertia baseLink withVirtual suffix = fromURDFText env F content p ∧
    fromYAMLTextPos env F content fixed filtered transformInertia baseLink withVirtual suffix = fromYAMLText env F content p ∧
    fromURDFFilePos env F fs path fixed filtered transformInertia baseLink withVirtual suffix = fromURDFFile env F fs path p ∧
    fromYAMLFilePos env F fs path fixed filtered transformInertia baseLink withVirtual suffix = fromYAMLFile env F fs path p ∧
    fromFilePos env F fs path fixed filtered transformInertia baseLink withVirtual suffix = fromFile env F fs path p := by
  obtain ⟨rfl, rfl, rfl, rfl, h5, rfl, h7⟩ := hp
  cases p
  dsimp only at h5 h7
  subst h5 h7
  refine ⟨?_, ?_, ?_, ?_, ?_⟩ <;>
    simp [fromURDFTextPos, fromYAMLTextPos, fromURDFFilePos, fromYAMLFilePos, fromFilePos, positionalParams, fromYAMLText,
      fromYAMLFile, yamlCtorParams]

/-- C69: the python functions read with the options given, no list of links meaning that none is filtered; called with nothing but
the text or the path they read with the default options. -/
theorem C69_python (env : ParserEnv K) (F : Formats K) (fs : Files) (a : PyReadArgs) (p : ParserParams)
    (hp : IsPositional p a.fixed (a.filtered.getD []) a.transformInertia a.baseLink a.withVirtual "_spherical")
    (content : Text) (path : String) :
    (pyFromURDF env F content a = fromURDFText env F content p ∧ pyFromYAML env F content a = fromYAMLText env F content p ∧
      pyFromURDFFile env F fs path a = fromURDFFile env F fs path p ∧
      pyFromYAMLFile env F fs path a = fromYAMLFile env F fs path p ∧ pyFromFile env F fs path a = fromFile env F fs path p) ∧
    IsPositional {} true [] true "" true "_spherical" ∧
    (pyFromURDF env F content {} = fromURDFText env F content {} ∧ pyFromYAML env F content {} = fromYAMLText env F content {} ∧
      pyFromFile env F fs path {} = fromFile env F fs path {}) := by
  have h := C69_positional env F fs _ _ _ _ _ _ p hp content path
  have h0 : IsPositional {} true [] true "" true "_spherical" := ⟨rfl, rfl, rfl, rfl, rfl, rfl, rfl⟩
  have h' := C69_positional env F fs _ _ _ _ _ _ _ h0 content path
  exact ⟨h, h0, h'.1, h'.2.1, h'.2.2.2.2⟩

/-- Paths of each kind, and a directory with a dot whose file has none. -/
example : HasExtension "robots/arm.v2.urdf" "urdf" ∧ HasExtension "arm.yml" "yml" ∧
    (fileFormat "models.d/urdf" = .error .runtimeError ∧ fileFormat "urdf" = .ok .urdf) ∧
    IsPositional ⟨false, ["tool"], true, false, "base", true, "_ball"⟩ false ["tool"] false "base" false "_ball" :=
  ⟨.inl ⟨"robots/arm.v2", by decide⟩, .inl ⟨"arm", by decide⟩, by decide +kernel, rfl, rfl, rfl, rfl, rfl, rfl, rfl⟩

end RBDyn
