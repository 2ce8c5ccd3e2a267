import Mathlib.Data.List.TakeWhile
import Verif.Model.Conv
import Verif.Props.Visuals
import Verif.Props.RoundTrip

/-!
C61: the program that converts between URDF and YAML.
-/

namespace RBDyn
variable {K : Type}

/-! ### Texts -/

/-- A text with a line feed added if the last line has none. -/
def Text.ended (t : Text) : Text := if t = [] ∨ t.getLast? = some '\n' then t else t ++ ['\n']

private theorem getLines_eq (n : Nat) : ∀ t : Text, t.length ≤ n → getLines t = t.ended := by
  induction n with
  | zero =>
    intro t h
    have : t = [] := List.length_eq_zero_iff.1 (by omega)
    subst this
    unfold getLines
    simp [getline, Text.ended]
  | succ n ih =>
    intro t h
    cases t with
    | nil => unfold getLines; simp [getline, Text.ended]
    | cons c cs =>
      have hl : getline (c :: cs) = some ((c :: cs).takeWhile (· != '\n'), ((c :: cs).dropWhile (· != '\n')).drop 1) := rfl
      have hlt := getline_lt hl
      unfold getLines
      split
      · rename_i h0; rw [hl] at h0; cases h0
      · rename_i line rest h0
        rw [hl] at h0
        simp only [Option.some.injEq, Prod.mk.injEq] at h0
        rw [← h0.1, ← h0.2, ih _ (by omega)]
        have e := List.takeWhile_append_dropWhile (p := (· != '\n')) (l := c :: cs)
        generalize (c :: cs).takeWhile (· != '\n') = a at *
        cases hd : (c :: cs).dropWhile (· != '\n') with
        | nil =>
          rw [hd, List.append_nil] at e
          have hn : '\n' ∉ c :: cs := by
            intro hm
            rw [List.dropWhile_eq_nil_iff] at hd
            have := hd _ hm
            simp at this
          have : (c :: cs).getLast? ≠ some '\n' := fun h => hn (List.mem_of_getLast? h)
          simp only [Text.ended, List.drop_nil, true_or, if_true]
          rw [if_neg (by simpa using this), e]
        | cons d ds =>
          rw [hd] at e
          have hd' : d = '\n' := by
            have := List.head?_dropWhile_not (p := (· != '\n')) (l := c :: cs)
            rw [hd] at this
            simpa using this
          subst hd'
          rw [List.drop_succ_cons, List.drop_zero, ← e]
          unfold Text.ended
          cases ds with
          | nil => simp
          | cons x xs =>
            have : (a ++ '\n' :: x :: xs).getLast? = (x :: xs).getLast? := by
              rw [List.getLast?_append, List.getLast?_cons_cons]
              cases h : (x :: xs).getLast? with
              | none => simp at h
              | some y => rfl
            rw [this]
            by_cases hx : (x :: xs).getLast? = some '\n'
            · simp [hx]
            · simp [hx]

/-- **C61**, what the program reads: the whole text, with a line feed at the end if there is none. -/
theorem C61_content (s : Stream) : getContent s = if s.avail = 0 then [] else s.data.ended := by
  unfold getContent
  rw [getLines_eq _ _ le_rfl]

private theorem findText_spec (p : Text) (hp : p ≠ []) : ∀ (t : Text) (n : Nat), findText p t = some n ↔
    p <+: t.drop n ∧ ∀ m < n, ¬ p <+: t.drop m := by
  intro t
  induction t with
  | nil =>
    intro n
    unfold findText
    simp [hp]
  | cons c cs ih =>
    intro n
    unfold findText
    by_cases h : p <+: c :: cs
    · rw [if_pos (List.isPrefixOf_iff_prefix.2 h)]
      cases n with
      | zero => simpa using h
      | succ n =>
        simp only [Option.some.injEq, Nat.zero_ne_add_one, false_iff, not_and, not_forall]
        exact fun _ => ⟨0, by omega, by simpa using h⟩
    · rw [if_neg (by rw [List.isPrefixOf_iff_prefix]; exact h)]
      cases n with
      | zero => simp [h]
      | succ n =>
        simp only [Option.map_eq_some_iff, Nat.add_right_cancel_iff, exists_eq_right, ih, List.drop_succ_cons]
        refine and_congr_right fun _ => ⟨fun H m hm => ?_, fun H m hm => H (m + 1) (by omega)⟩
        cases m with
        | zero => simpa using h
        | succ m => exact H m (by omega)

/-- `pre` ends where `p` is found for the first time in `t`. -/
def Text.FirstAt (t pre p : Text) : Prop := pre ++ p <+: t ∧ ¬ p <:+: pre ++ p.dropLast

private theorem infix_iff_drop (p t : Text) : p <:+: t ↔ ∃ m, p <+: t.drop m := by
  constructor
  · rintro ⟨a, b, rfl⟩
    exact ⟨a.length, by simp⟩
  · rintro ⟨m, b, h⟩
    exact ⟨t.take m, b, by rw [List.append_assoc, h, List.take_append_drop]⟩

private theorem findText_iff (p : Text) (hp : p ≠ []) (t : Text) (n : Nat) : findText p t = some n ↔
    ∃ pre, pre.length = n ∧ t.FirstAt pre p := by
  rw [findText_spec p hp]
  have hl : 0 < p.length := List.length_pos_iff.2 hp
  constructor
  · rintro ⟨h1, h2⟩
    have hn : n ≤ t.length := by
      by_contra hc
      rw [List.drop_eq_nil_of_le (by omega)] at h1
      exact hp (List.prefix_nil.1 h1)
    refine ⟨t.take n, by simp [hn], ⟨?_, ?_⟩⟩
    · obtain ⟨b, hb⟩ := h1
      exact ⟨b, by rw [List.append_assoc, hb, List.take_append_drop]⟩
    · rw [infix_iff_drop]
      rintro ⟨m, hm⟩
      have hlen := hm.length_le
      simp only [List.length_drop, List.length_append, List.length_take, List.length_dropLast] at hlen
      have hmn : m < n := by omega
      refine h2 m hmn (hm.trans ?_)
      have : t.take n ++ p.dropLast <+: t := by
        obtain ⟨b, hb⟩ := h1
        refine ((List.prefix_append_right_inj _).2 (List.dropLast_prefix p)).trans ?_
        exact ⟨b, by rw [List.append_assoc, hb, List.take_append_drop]⟩
      exact this.drop m
  · rintro ⟨pre, rfl, h1, h2⟩
    obtain ⟨b, rfl⟩ := h1
    refine ⟨by simp, fun m hm hc => h2 ?_⟩
    rw [infix_iff_drop]
    refine ⟨m, ?_⟩
    have hd : (pre ++ p ++ b).drop m = (pre ++ p.dropLast).drop m ++ (p.getLast hp :: b) := by
      rw [← List.drop_append_of_le_length (by simp; omega)]
      congr 1
      rw [List.append_assoc, List.append_assoc]
      congr 1
      conv_lhs => rw [← List.dropLast_append_getLast hp]
      simp
    rw [hd] at hc
    exact List.prefix_of_prefix_length_le hc (List.prefix_append _ _) (by
      simp only [List.length_drop, List.length_append, List.length_dropLast]; omega)

private theorem getElem?_pre {pre : Text} {t : Text} (h : pre <+: t) {i : Nat} (hi : i < pre.length) : t[i]? = pre[i]? := by
  obtain ⟨b, rfl⟩ := h
  exact List.getElem?_append_left hi

/-- **C61**, the format: a text is taken for URDF iff the first `robot` in it is just after a `<`. -/
theorem C61_detect_urdf (t : Text) : detect t = some .urdf ↔
    ∃ pre, t.FirstAt pre "robot".toList ∧ pre.getLast? = some '<' := by
  unfold detect
  constructor
  · intro h
    split at h
    · cases h
    · rename_i pos hp
      obtain ⟨pre, rfl, hf⟩ := (findText_iff _ (by decide) _ _).1 hp
      refine ⟨pre, hf, ?_⟩
      split at h
      · rename_i hc
        rw [Bool.and_eq_true, decide_eq_true_eq, decide_eq_true_eq] at hc
        rw [List.getLast?_eq_getElem?, ← getElem?_pre ((List.prefix_append _ _).trans hf.1) (by omega)]
        exact hc.2
      · split at h <;> cases h
  · rintro ⟨pre, hf, hl⟩
    rw [(findText_iff _ (by decide) _ _).2 ⟨pre, rfl, hf⟩]
    dsimp only
    have h0 : 0 < pre.length := by
      cases pre with
      | nil => cases hl
      | cons c cs => simp
    rw [if_pos]
    rw [Bool.and_eq_true, decide_eq_true_eq, decide_eq_true_eq]
    refine ⟨h0, ?_⟩
    rw [getElem?_pre ((List.prefix_append _ _).trans hf.1) (by omega), ← List.getLast?_eq_getElem?, hl]

/-- **C61**, the format: a text is taken for YAML iff the first `robot` in it is just before a `:` and not just after a `<`. -/
theorem C61_detect_yaml (t : Text) : detect t = some .yaml ↔
    ∃ pre, t.FirstAt pre "robot".toList ∧ pre ++ "robot:".toList <+: t ∧ pre.getLast? ≠ some '<' := by
  have key : ∀ pre : Text, t.FirstAt pre "robot".toList →
      (pre ++ "robot:".toList <+: t ↔ t[pre.length + 5]? = some ':') := by
    rintro pre ⟨⟨b, rfl⟩, -⟩
    have h5 : "robot".toList.length = 5 := rfl
    rw [List.getElem?_append_right (by rw [List.length_append, h5])]
    rw [List.length_append, h5, Nat.sub_self]
    have : "robot:".toList = "robot".toList ++ [':'] := rfl
    rw [this, ← List.append_assoc, List.prefix_append_right_inj]
    cases b with
    | nil => simp
    | cons c cs => simp [List.cons_prefix_cons, eq_comm]
  have lt : ∀ pre : Text, t.FirstAt pre "robot".toList → 0 < pre.length → t[pre.length - 1]? = pre.getLast? := by
    intro pre hf h0
    rw [getElem?_pre ((List.prefix_append _ _).trans hf.1) (by omega), ← List.getLast?_eq_getElem?]
  unfold detect
  constructor
  · intro h
    split at h
    · cases h
    · rename_i pos hp
      obtain ⟨pre, rfl, hf⟩ := (findText_iff _ (by decide) _ _).1 hp
      refine ⟨pre, hf, ?_⟩
      split at h
      · cases h
      · rename_i hn
        split at h
        · rename_i hc
          rw [Bool.and_eq_true, decide_eq_true_eq, decide_eq_true_eq] at hc
          refine ⟨(key pre hf).2 hc.2, fun hl => hn ?_⟩
          have h0 : 0 < pre.length := by
            cases pre with
            | nil => cases hl
            | cons c cs => simp
          rw [Bool.and_eq_true, decide_eq_true_eq, decide_eq_true_eq]
          exact ⟨h0, by rw [lt pre hf h0, hl]⟩
        · cases h
  · rintro ⟨pre, hf, hc, hl⟩
    rw [(findText_iff _ (by decide) _ _).2 ⟨pre, rfl, hf⟩]
    dsimp only
    have hk := (key pre hf).1 hc
    rw [if_neg, if_pos]
    · rw [Bool.and_eq_true, decide_eq_true_eq, decide_eq_true_eq]
      exact ⟨(List.getElem?_eq_some_iff.1 hk).1, hk⟩
    · rw [Bool.and_eq_true, decide_eq_true_eq, decide_eq_true_eq]
      rintro ⟨h0, h1⟩
      exact hl (by rw [← lt pre hf h0, h1])

/-- **C61** does not hold of every document: a comment with the word before the root element decides, whatever the format. -/
theorem C61_not_comment :
    detect "<!-- my robot -->\n<robot name=\"r\"/>\n".toList = none ∧
    detect "<!-- robot: r -->\n<robot name=\"r\"/>\n".toList = some .yaml ∧
    detect "# from <robot>\nrobot:\n".toList = some .urdf := by
  decide +kernel

/-! ### Arguments -/

/-- A stream that says nothing is available iff there is nothing to read. (It is a contract: `in_avail` may return zero for a pipe
whose data are not there yet.) -/
def Stream.Honest (s : Stream) : Prop := s.avail = 0 ↔ s.data = []

theorem Text.ended_eq_nil (t : Text) : t.ended = [] ↔ t = [] := by
  unfold Text.ended
  split
  · rfl
  · rename_i h
    have : t ≠ [] := fun h' => h (.inl h')
    simp [this]

private theorem content_honest {s : Stream} (h : s.Honest) : getContent s = s.data.ended := by
  rw [C61_content]
  by_cases h0 : s.avail = 0
  · rw [if_pos h0, h.1 h0]; rfl
  · rw [if_neg h0]

/-- What the usage says, urdf_yaml_conv.cpp:33-48: where to read from (`none` for the standard input) and where to write to (`none` for
the standard output). -/
def requested (hasData : Bool) : List String → Option (Option String × Option String)
  | [] => if hasData then some (none, none) else none
  | [a] => if hasData then some (none, some a) else some (some a, none)
  | [i, o] => some (some i, some o)
  | _ => none

/-- What must be written. -/
def written (dst : Option String) (t : Text) : Sink × Text :=
  match dst with
  | none => (.stdout, t ++ ['\n'])
  | some p => (.file p, t)

section
variable [Scalar K]

/-- **C61**, the part that holds: the program does what its usage says, when two files are given provided the standard input has no
data. It reads the input asked for, converts its text, and writes where it is asked to; when the input or the format is missing or the
output cannot be opened, it ends with an error and writes nothing. -/
theorem C61_usage_partial (env : ParserEnv K) (F : Formats K) {stdin : Stream} (hs : stdin.Honest) (fs : Files)
    (hf : ∀ p s, fs.read p = some s → s.Honest) {args : List String} (h1 : args ≠ ["-h"]) (h2 : args ≠ ["--help"])
    (h3 : args.length = 2 → stdin.data = []) :
    convMain env F stdin fs args =
      match requested (!stdin.data.isEmpty) args with
      | none => .ok ⟨-1, none⟩
      | some (src, dst) =>
        match (match src with | none => some stdin | some p => fs.read p) with
        | none => .ok ⟨-1, none⟩
        | some s =>
          match detect s.data.ended with
          | none => .ok ⟨-1, none⟩
          | some fmt =>
            match convertText env F fmt s.data.ended with
            | .error e => .error e
            | .ok t => .ok (if dst.all fs.canWrite then ⟨0, some (written dst t)⟩ else ⟨-1, none⟩) := by
  have conv : ∀ (out : Option String) (c : Text), convertContent env F fs out c =
      match detect c with
      | none => .ok ⟨-1, none⟩
      | some fmt =>
        match convertText env F fmt c with
        | .error e => .error e
        | .ok t => .ok (if out.all fs.canWrite then ⟨0, some (written out t)⟩ else ⟨-1, none⟩) := by
    intro out c
    unfold convertContent
    cases detect c with
    | none => rfl
    | some fmt =>
      dsimp only
      cases convertText env F fmt c with
      | error e => rfl
      | ok t => cases out <;> rfl
  unfold convMain
  rw [if_neg (by simp [h1, h2]), content_honest hs]
  by_cases hd : stdin.data = []
  · have he : (stdin.data.ended).length = 0 := by rw [(Text.ended_eq_nil _).2 hd]; rfl
    have hb : (!stdin.data.isEmpty) = false := by rw [hd]; rfl
    rw [hb]
    rcases args with _ | ⟨a, _ | ⟨b, _ | ⟨c, l⟩⟩⟩
    · simp [he, requested]
    · simp only [he, requested, List.length_cons, List.length_nil]
      norm_num
      cases hr : fs.read a with
      | none => rfl
      | some s =>
        dsimp only
        rw [conv, content_honest (hf _ _ hr)]
        cases detect s.data.ended with
        | none => rfl
        | some fmt => dsimp only; cases convertText env F fmt s.data.ended <;> simp
    · simp only [he, requested, List.length_cons, List.length_nil]
      norm_num
      cases hr : fs.read a with
      | none => rfl
      | some s =>
        dsimp only
        rw [conv, content_honest (hf _ _ hr)]
        cases detect s.data.ended with
        | none => rfl
        | some fmt => dsimp only; cases convertText env F fmt s.data.ended <;> simp
    · simp [requested]
  · have he : (stdin.data.ended).length ≠ 0 := by
      rw [Ne, List.length_eq_zero_iff, Text.ended_eq_nil]; exact hd
    have he' : (stdin.data.ended.length == 0) = false := beq_eq_false_iff_ne.2 he
    have hb : (!stdin.data.isEmpty) = true := by simpa using hd
    rw [hb]
    rcases args with _ | ⟨a, _ | ⟨b, _ | ⟨c, l⟩⟩⟩
    · simp only [he', requested, List.length_cons, List.length_nil]
      norm_num
      rw [conv]
      cases detect stdin.data.ended with
      | none => rfl
      | some fmt => dsimp only; cases convertText env F fmt stdin.data.ended <;> simp
    · simp only [he', requested, List.length_cons, List.length_nil]
      norm_num
      rw [conv]
      cases detect stdin.data.ended with
      | none => rfl
      | some fmt => dsimp only; cases convertText env F fmt stdin.data.ended <;> simp
    · exact absurd (h3 rfl) hd
    · simp [requested]

/-- **C61**: whatever the streams, the program writes only the result of a conversion that succeeded, of the text it read, and then
ends with 0; when it asks for help it writes nothing. -/
theorem C61_written (env : ParserEnv K) (F : Formats K) (stdin : Stream) (fs : Files) (args : List String) {o : Outcome}
    (h : convMain env F stdin fs args = .ok o) :
    (o.code = 0 ∧ (o.output = none → args = ["-h"] ∨ args = ["--help"]) ∨ o.code = -1 ∧ o.output = none) ∧
    ∀ sink t, o.output = some (sink, t) → ∃ c fmt t', detect c = some fmt ∧ convertText env F fmt c = .ok t' ∧
      (c = getContent stdin ∨ ∃ p ∈ args, ∃ s, fs.read p = some s ∧ c = getContent s) ∧
      (sink = .stdout ∧ t = t' ++ ['\n'] ∨ ∃ p ∈ args, sink = .file p ∧ fs.canWrite p = true ∧ t = t') := by
  have conv : ∀ (out : Option String) (c : Text), (∀ p, out = some p → p ∈ args) →
      (c = getContent stdin ∨ ∃ p ∈ args, ∃ s, fs.read p = some s ∧ c = getContent s) →
      convertContent env F fs out c = .ok o →
      (o.code = 0 ∧ (o.output = none → args = ["-h"] ∨ args = ["--help"]) ∨ o.code = -1 ∧ o.output = none) ∧
      ∀ sink t, o.output = some (sink, t) → ∃ c fmt t', detect c = some fmt ∧ convertText env F fmt c = .ok t' ∧
        (c = getContent stdin ∨ ∃ p ∈ args, ∃ s, fs.read p = some s ∧ c = getContent s) ∧
        (sink = .stdout ∧ t = t' ++ ['\n'] ∨ ∃ p ∈ args, sink = .file p ∧ fs.canWrite p = true ∧ t = t') := by
    intro out c hm hc h
    unfold convertContent at h
    cases hd : detect c with
    | none =>
      rw [hd] at h
      cases h
      exact ⟨.inr ⟨rfl, rfl⟩, fun _ _ h => by cases h⟩
    | some fmt =>
      rw [hd] at h
      dsimp only at h
      obtain ⟨t', ht, h⟩ := Res.bind_eq_ok.1 h
      cases out with
      | none =>
        cases h
        refine ⟨.inl ⟨rfl, fun h => by cases h⟩, fun sink t h => ?_⟩
        cases h
        exact ⟨c, fmt, t', hd, ht, hc, .inl ⟨rfl, rfl⟩⟩
      | some p =>
        cases h
        by_cases hw : fs.canWrite p = true
        · rw [if_pos hw]
          refine ⟨.inl ⟨rfl, fun h => by cases h⟩, fun sink t h => ?_⟩
          cases h
          exact ⟨c, fmt, t', hd, ht, hc, .inr ⟨p, hm p rfl, rfl, hw, rfl⟩⟩
        · rw [if_neg hw]
          exact ⟨.inr ⟨rfl, rfl⟩, fun _ _ h => by cases h⟩
  have bad : (.ok ⟨-1, none⟩ : Res Outcome) = .ok o →
      (o.code = 0 ∧ (o.output = none → args = ["-h"] ∨ args = ["--help"]) ∨ o.code = -1 ∧ o.output = none) ∧
      ∀ sink t, o.output = some (sink, t) → ∃ c fmt t', detect c = some fmt ∧ convertText env F fmt c = .ok t' ∧
        (c = getContent stdin ∨ ∃ p ∈ args, ∃ s, fs.read p = some s ∧ c = getContent s) ∧
        (sink = .stdout ∧ t = t' ++ ['\n'] ∨ ∃ p ∈ args, sink = .file p ∧ fs.canWrite p = true ∧ t = t') := by
    intro h
    cases h
    exact ⟨.inr ⟨rfl, rfl⟩, fun _ _ h => by cases h⟩
  unfold convMain at h
  split at h
  · rename_i hh
    cases h
    rw [Bool.or_eq_true, decide_eq_true_eq, decide_eq_true_eq] at hh
    exact ⟨.inl ⟨rfl, fun _ => hh⟩, fun _ _ h => by cases h⟩
  · split at h
    · exact bad h
    · dsimp only at h
      have hout : ∀ (b : Bool) (p : String), (if b = true then args.getLast? else none) = some p → p ∈ args := by
        intro b p hp
        cases b
        · cases hp
        · exact List.mem_of_getLast? hp
      split at h
      · split at h
        · exact bad h
        · rename_i input l _ _
          split at h
          · exact bad h
          · rename_i s hr
            exact conv _ _ (hout _) (.inr ⟨input, List.mem_cons_self, s, hr, rfl⟩) h
      · exact conv _ _ (hout _) (.inl rfl) h

/-- **C61** does not hold with two files when the standard input has data: both names are ignored, against the usage. -/
theorem C61_not_two_files (env : ParserEnv K) (F : Formats K) {stdin : Stream} (hs : stdin.Honest) (hd : stdin.data ≠ []) (fs : Files)
    (i o : String) : convMain env F stdin fs [i, o] = convMain env F stdin fs [] ∧
      requested true [i, o] = some (some i, some o) ∧ requested true [] = some (none, none) := by
  refine ⟨?_, rfl, rfl⟩
  have he' : (stdin.data.ended.length == 0) = false := beq_eq_false_iff_ne.2 (by
    rw [Ne, List.length_eq_zero_iff, Text.ended_eq_nil]; exact hd)
  unfold convMain
  rw [content_honest hs]
  simp [he']

/-- The data of a standard input that says nothing is available yet are ignored. -/
theorem C61_not_available (env : ParserEnv K) (F : Formats K) {stdin : Stream} (h : stdin.avail = 0) (fs : Files) (args : List String) :
    convMain env F stdin fs args = convMain env F ⟨0, []⟩ fs args := by
  unfold convMain
  rw [C61_content, C61_content, if_pos h, if_pos rfl]

end

/-! ### What the conversion keeps -/

section
variable [Scalar K]

/-- **C61**, the robot: converting a URDF text gives a YAML text that describes the same robot, under the conditions of C48 and C59 on
the robot `r` the text describes (C55 says which texts give a standard robot): the document can be written, and reading it back gives
the same name, the same `MultiBody` and configuration, and the visuals as C59 says. -/
theorem C61_to_yaml_partial {env : ParserEnv K} (he : 0 ≤ env.eps) (F : Formats K) {content : Text} {r : FResult K} {base : String}
    (hr : fromURDFDoc env (F.parseX content) {} = .ok r) (S : r.core.Standard env base true)
    (hb : ∀ b ∈ r.core.mb.bodies, b.Writable env) (hb0 : ∀ b, r.core.mb.bodies[0]? = some b → b.name ≠ "")
    (hj : ∀ j ∈ r.core.mb.joints.tail, j.Writable env ∧ r.core.limits.Filled j.name ∧
      (j.type = .Free → hasLimits r.core.limits j.name = false))
    (hX : ∀ X ∈ r.core.mb.Xt.tail, X.Writable env)
    (hv : ∀ b ∈ r.core.mb.bodies, ∀ m ∈ [r.visual, r.collision], ∀ l, SMap.find m b.name = some l → ∀ v ∈ l, v.known = true →
      v.Writable env) :
    ∃ (doc : YDoc K) (r' : FResult K), convertText env F .urdf content = .ok (F.printY doc) ∧
      fromYAMLDoc env (some doc) {} = .ok r' ∧ r'.core.name = r.core.name ∧ r'.core.mb = r.core.mb ∧ r'.core.mbc = r.core.mbc ∧
      ∀ n, SMap.find r'.visual n = r.visual.stored (r.core.mb.bodies.map Body.name) n ∧
        SMap.find r'.collision n = r.collision.stored (r.core.mb.bodies.map Body.name) n := by
  obtain ⟨d, c', h1, h2, h3, h4, h5, -⟩ := C48_yaml_round_trip_partial he S hb hb0 hj hX
  obtain ⟨n, Sp⟩ := S.spec
  obtain ⟨links, visual', collision', v1, v2, v3, v4⟩ := C59_yaml (env := env) (visual := r.visual) (collision := r.collision)
    (bodies := r.core.mb.bodies) Sp.bnames hv (params := {}) rfl rfl
  have hd : d = ⟨some r.core.name, some false, some (r.core.mb.bodies.map (writeYLink env)), d.joints⟩ := by
    unfold toYAML at h1
    obtain ⟨j, -, h1⟩ := Res.bind_eq_ok.1 h1
    rw [← Except.ok.inj h1]
  refine ⟨⟨d.name, d.degrees, [], some links, d.joints⟩, ⟨c', visual', collision'⟩, ?_, ?_, h3, h4, h5, v4⟩
  · unfold convertText
    dsimp only
    rw [hr, Res.bind_ok]
    unfold toYAMLDoc
    rw [h1, Res.bind_ok, v1, Res.bind_ok]
    rfl
  · have hrob : (⟨d.name, d.degrees, [], some links, d.joints⟩ : YDoc K).robot = d := by
      rw [hd]
      simp only [YDoc.robot, Option.map_some, v2]
    unfold fromYAMLDoc
    rw [Option.map_some, hrob, h2, Res.bind_ok]
    dsimp only
    have : d.degrees.getD false = false := by rw [hd]; rfl
    rw [this, Option.getD_some, v3, Res.bind_ok]
    rfl

/-- **C61**, the robot: converting a YAML text gives a URDF text that describes the same robot, under the conditions of C47 and C59. -/
theorem C61_to_urdf_partial {env : ParserEnv K} (he : 0 ≤ env.eps) (F : Formats K) {content : Text} {r : FResult K} {base : String}
    (hr : fromYAMLDoc env (F.parseY content) {} = .ok r) (S : r.core.Standard env base true)
    (hb : ∀ b ∈ r.core.mb.bodies, b.Writable env ∧ env.Prints b.numbers)
    (hj : ∀ j ∈ r.core.mb.joints.tail, j.WritableX env ∧ r.core.limits.Filled j.name)
    (hX : ∀ X ∈ r.core.mb.Xt.tail, X.WritableX env)
    (hv : ∀ b ∈ r.core.mb.bodies, ∀ m ∈ [r.visual, r.collision], ∀ l, SMap.find m b.name = some l → ∀ v ∈ l, v.known = true →
      v.WritableX env) :
    ∃ (doc : XDoc K) (r' : FResult K), convertText env F .yaml content = .ok (F.printX doc) ∧
      fromURDFDoc env (some doc) {} = .ok r' ∧ r'.core.name = r.core.name ∧ r'.core.mb = r.core.mb ∧ r'.core.mbc = r.core.mbc ∧
      ∀ n, SMap.find r'.visual n = r.visual.stored (r.core.mb.bodies.map Body.name) n ∧
        SMap.find r'.collision n = r.collision.stored (r.core.mb.bodies.map Body.name) n := by
  obtain ⟨d, c', h1, h2, h3, h4, h5, -⟩ := C47_urdf_round_trip_partial he S hb hj hX
  obtain ⟨n, Sp⟩ := S.spec
  obtain ⟨links, visual', collision', v1, v2, v3, v4⟩ := C59_urdf (env := env) (visual := r.visual) (collision := r.collision)
    (bodies := r.core.mb.bodies) Sp.bnames hv (params := {}) rfl rfl
  have hd : d = ⟨some r.core.name, r.core.mb.bodies.map (writeXLink env), d.joints⟩ := by
    unfold toURDF at h1
    obtain ⟨j, -, h1⟩ := Res.bind_eq_ok.1 h1
    rw [← Except.ok.inj h1]
  refine ⟨⟨d.name, [], links, d.joints⟩, ⟨c', visual', collision'⟩, ?_, ?_, h3, h4, h5, v4⟩
  · unfold convertText
    dsimp only
    rw [hr, Res.bind_ok]
    unfold toURDFDoc
    rw [h1, Res.bind_ok, v1, Res.bind_ok]
    rfl
  · have hrob : (⟨d.name, [], links, d.joints⟩ : XDoc K).robot = d := by
      rw [hd]
      simp only [XDoc.robot, v2]
    unfold fromURDFDoc
    rw [Option.map_some, hrob, h2, Res.bind_ok]
    dsimp only
    rw [v3, Res.bind_ok]
    rfl

end

/-! ### Examples -/

/-- The two parts of a detected format can be there. -/
example : detect "<?xml version=\"1.0\"?>\n<robot name=\"r\"/>\n".toList = some .urdf ∧ detect "robot:\n  name: r\n".toList = some .yaml := by
  decide +kernel

/-- A document with a sphere. -/
def Sample.docX : XDoc ℚ :=
  let d := Sample.two ⟨some [1, 2, 3], some [0, 0, 1]⟩
  ⟨d.name, [], d.links.map fun l => ⟨l, [⟨none, none, some { sphere := some (some 1) }, none⟩], []⟩, d.joints⟩

/-- Formats where the text `<robot/>` describes it. -/
def Sample.formats : Formats ℚ := ⟨fun t => if t = "<robot/>\n".toList then some Sample.docX else none, fun _ => none,
  fun _ => "<robot/>".toList, fun _ => "robot:".toList⟩

/-- Files with this text. -/
def Sample.files : Files := ⟨fun p => if p = "in" then some ⟨8, "<robot/>".toList⟩ else none, fun p => p = "out"⟩

/-- The program converts it. -/
example : ∃ t, convMain Sample.envR Sample.formats ⟨0, []⟩ Sample.files ["in", "out"] = .ok ⟨0, some (.file "out", t)⟩ := by
  obtain ⟨r, h1, S, hn, hb, hj, hlo, hup, hX⟩ := Sample.two_ready
  have hv : urdfVisuals {} Sample.docX.materials Sample.docX.links =
      .ok ([("b", [⟨"", 1, ⟨.SPHERE, .sphere 1⟩, Material.none⟩]), ("a", [⟨"", 1, ⟨.SPHERE, .sphere 1⟩, Material.none⟩])], []) := by
    decide +kernel
  have hr : fromURDFDoc Sample.envR (Sample.formats.parseX "<robot/>\n".toList) {} = .ok ⟨r,
      [("b", [⟨"", 1, ⟨.SPHERE, .sphere 1⟩, Material.none⟩]), ("a", [⟨"", 1, ⟨.SPHERE, .sphere 1⟩, Material.none⟩])], []⟩ := by
    have hp : Sample.formats.parseX "<robot/>\n".toList = some Sample.docX := by decide +kernel
    have hd : Sample.docX.robot = Sample.two ⟨some [1, 2, 3], some [0, 0, 1]⟩ := by decide +kernel
    unfold fromURDFDoc
    rw [hp, Option.map_some, hd, h1, Res.bind_ok]
    dsimp only
    rw [hv]
    rfl
  obtain ⟨doc, r', h2, -⟩ := C61_to_yaml_partial (le_refl _) Sample.formats hr S (fun b h => (hb b h).1)
    (fun b h => (hb b (List.mem_of_getElem? h)).2)
    (by
      dsimp only
      rw [hj]
      intro j hj'
      rw [List.mem_singleton] at hj'
      subst hj'
      refine ⟨.inl ⟨_, _, by decide +kernel, .inr rfl⟩, ?_, fun h => by cases h⟩
      intro x hx
      rcases hx with hx | hx
      · have := hlo.symm.trans hx
        simp at this
        simp [← this]
      · have := hup.symm.trans hx
        simp at this
        simp [← this])
    (fun X h => (hX X h).1)
    (by
      have hE : (1 : Mat3 ℚ).tr = 1 := by decide +kernel
      have hw : (⟨"", 1, ⟨.SPHERE, .sphere 1⟩, Material.none⟩ : Visual ℚ).Writable Sample.envR := by
        refine ⟨.inr (.inr (.inl ⟨rfl, _, rfl⟩)), .inl rfl, ⟨?_, ?_, ?_⟩⟩
        all_goals first | (unfold Vec3.Sharp; decide +kernel) | decide +kernel
      intro b _ m hm l hl v hvl _
      simp only [List.mem_cons, List.not_mem_nil, or_false] at hm
      rcases hm with rfl | rfl
      · have hm : l = [⟨"", 1, ⟨.SPHERE, .sphere 1⟩, Material.none⟩] := by
          obtain ⟨e, he, rfl⟩ := Option.map_eq_some_iff.1 hl
          have := List.mem_of_find?_eq_some he
          simp only [List.mem_cons, List.not_mem_nil, or_false] at this
          rcases this with rfl | rfl <;> rfl
        subst hm
        rw [List.mem_singleton] at hvl
        subst hvl
        exact hw
      · simp [SMap.find] at hl)
  refine ⟨Sample.formats.printY doc, ?_⟩
  · rw [C61_usage_partial _ _ (by simp [Stream.Honest]) _ (by
      intro p s h
      simp only [Sample.files] at h
      split at h
      · cases h; simp [Stream.Honest]
      · cases h) (by decide) (by decide) (fun _ => rfl)]
    have e : (Text.ended "<robot/>".toList) = "<robot/>\n".toList := by decide +kernel
    have e' : detect "<robot/>\n".toList = some .urdf := by decide +kernel
    simp only [requested, Sample.files, if_true, e, e']
    rw [h2]
    rfl

/-- A YAML document with a prismatic joint, limits and a rotated frame. -/
def Sample.docY : YDoc ℚ :=
  let i : Option (YInertial ℚ) := some ⟨some 2, none, some ⟨some 1, some 1, some 1, none, none, none⟩⟩
  ⟨some "r", some false, [], some [⟨⟨some "a", i⟩, [], []⟩, ⟨⟨some "b", i⟩, [], []⟩],
    some [⟨some "j", some "a", some "b", some "prismatic", some [0, 0, 1], some ⟨some [1, 2, 3], some [0, 0, 1], none⟩,
      some ⟨some (.scalar (.val 0)), some (.scalar (.val 1)), none, none, none⟩⟩]⟩

/-- Formats where every text describes it. -/
def Sample.formatsY : Formats ℚ := ⟨fun _ => none, fun _ => some Sample.docY, fun _ => "<robot/>".toList, fun _ => "robot:".toList⟩

example : ∃ (doc : XDoc ℚ) (r r' : FResult ℚ), convertText Sample.envR Sample.formatsY .yaml "robot:".toList = .ok (Sample.formatsY.printX doc) ∧
    fromYAMLDoc Sample.envR (some Sample.docY) {} = .ok r ∧ fromURDFDoc Sample.envR (some doc) {} = .ok r' ∧ r'.core.mb = r.core.mb := by
  have h := C55_yaml_tree (env := Sample.envR) (params := {}) (robot := Sample.docY.robot) (name := "r") (d := false)
    (L := Sample.docY.robot.links.getD []) (J := Sample.docY.robot.joints.getD []) (base := "a") rfl rfl rfl rfl rfl rfl
    rfl (by decide +kernel) (by decide +kernel)
    (by
      intro l hl
      have : ∀ l ∈ Sample.docY.robot.links.getD [], l.name ≠ none ∧ ∀ i ∈ l.inertial, ∀ f ∈ i.frame,
          (∀ v ∈ f.xyz, v.length = 3) ∧ f.rpy = none := by decide +kernel
      exact ⟨(this l hl).1, fun i f hi hf => (this l hl).2 i hi f hf⟩)
    (by
      intro j hj
      have h1 : ∀ j ∈ Sample.docY.robot.joints.getD [], j.name ≠ none ∧ j.parent ≠ none ∧ j.child ≠ none ∧
          declaredYAML j.type ("_spherical".toList.isSuffixOf (j.name.getD "").toList) ≠ none ∧
          (∀ v ∈ j.axis, v.length = 3) ∧ (∀ f ∈ j.frame, ∀ v ∈ f.xyz, v.length = 3) ∧
          (∀ f ∈ j.frame, ∀ v ∈ f.rpy, v.length = 3) := by decide +kernel
      obtain ⟨a, b, c, d, e, f, g⟩ := h1 j hj
      refine ⟨a, b, c, d, e, f, g, ?_⟩
      intro y t hy _ x hx
      simp only [Sample.docY, YDoc.robot, Option.getD_some, List.mem_cons, List.not_mem_nil, or_false] at hj
      subst hj
      simp at hy
      subst hy
      simp at hx
      rcases hx with rfl | rfl <;> simp)
    (by decide +kernel) ⟨by decide, .inr ⟨rfl, _, rfl, rfl⟩⟩
    { root := by decide +kernel
      once := by decide +kernel
      top := by decide +kernel
      below := by decide +kernel
      rank := ⟨fun n => ["a", "b"].idxOf n, by decide +kernel⟩ }
  obtain ⟨r, h1, -, -, h4⟩ := h
  have S := h4 (by decide +kernel)
  have h : (match fromYAML Sample.envR (some Sample.docY.robot) {} with
    | .ok r => decide (∀ b ∈ r.mb.bodies, 0 < b.inertia.m ∧ b.inertia.I.isZeroE 0 = false) &&
        decide (r.mb.joints.tail = [Joint.mk' .Prism ⟨0, 0, 1⟩ true "j"]) &&
        decide (r.limits.lower.find "j" = some [.val 0]) && decide (r.limits.upper.find "j" = some [.val 1]) &&
        decide (∀ X ∈ r.mb.Xt.tail, urdfRPY (Sample.euler X.E.tr).x (Sample.euler X.E.tr).y (Sample.euler X.E.tr).z = X.E)
    | .error _ => false) = true := by decide +kernel
  have sharp : ∀ v : Vec3 ℚ, v.Sharp 0 := by
    intro v h
    simp only [Vec3.isZeroE, Bool.and_eq_true, decide_eq_true_eq, abs_nonpos_iff] at h
    exact Vec3.ext h.1.1 h.1.2 h.2
  rw [h1] at h
  dsimp only at h
  simp only [Bool.and_eq_true, decide_eq_true_eq] at h
  obtain ⟨⟨⟨⟨a2, hj⟩, hlo⟩, hup⟩, a6⟩ := h
  have hv : yamlVisuals Sample.envR {} false Sample.docY.materials (Sample.docY.links.getD []) = .ok ([], []) := by decide +kernel
  have hr : fromYAMLDoc Sample.envR (Sample.formatsY.parseY "robot:".toList) {} = .ok ⟨r, [], []⟩ := by
    show fromYAMLDoc Sample.envR (some Sample.docY) {} = _
    unfold fromYAMLDoc
    rw [Option.map_some, h1, Res.bind_ok]
    dsimp only
    have : Sample.docY.degrees.getD false = false := rfl
    rw [this, hv]
    rfl
  obtain ⟨doc, r', h2, h3, -, h5, -⟩ := C61_to_urdf_partial (le_refl _) Sample.formatsY hr S
    (fun b h => ⟨.inl ⟨(a2 b h).1, (a2 b h).2, sharp _⟩, fun x _ => rfl⟩)
    (by
      dsimp only
      rw [hj]
      intro j hj'
      rw [List.mem_singleton] at hj'
      subst hj'
      refine ⟨⟨⟨_, .inl ⟨_, _, by decide +kernel, .inr rfl⟩, .inl rfl⟩, fun _ a _ => ⟨rfl, fun x _ => rfl⟩⟩, ?_⟩
      intro x hx
      rcases hx with hx | hx
      · have := hlo.symm.trans hx
        simp at this
        simp [← this]
      · have := hup.symm.trans hx
        simp at this
        simp [← this])
    (fun X h => ⟨sharp _, sharp _, a6 X h, fun x _ => rfl⟩)
    (by
      intro b _ m hm l hl
      simp only [List.mem_cons, List.not_mem_nil, or_false] at hm
      rcases hm with rfl | rfl <;> simp [SMap.find] at hl)
  exact ⟨doc, _, r', h2, hr, h3, h5⟩

end RBDyn
