import Verif.Model.Visuals

/-!
Model of `src/parsers/urdf_yaml_conv.cpp`, the program that converts between URDF and YAML, and of the whole results and
documents it works on: the robot of `Verif/Model/Parsers.lean` with the visuals of `Verif/Model/Visuals.lean`.

Not modelled: the messages on the error stream and the text of the usage.
-/

namespace RBDyn
variable {K : Type}

/-! ### Whole documents -/

/-- A URDF document: the `<robot>` element with its materials and its links with visuals. -/
structure XDoc (K : Type) where
  name : Option String
  materials : List (XMaterial K)
  links : List (XVLink K)
  joints : List (XJoint K)
  deriving DecidableEq, Repr

/-- What the part of the reader that builds the graph looks at. -/
def XDoc.robot (d : XDoc K) : XRobot K := ⟨d.name, d.links.map XVLink.link, d.joints⟩

/-- A YAML document: the `robot` map with its materials and its links with visuals. -/
structure YDoc (K : Type) where
  name : Option String
  degrees : Option Bool
  materials : List (YMaterial K)
  links : Option (List (YVLink K))
  joints : Option (List (YJoint K))
  deriving DecidableEq, Repr

/-- What the part of the reader that builds the graph looks at. -/
def YDoc.robot (d : YDoc K) : YRobot K := ⟨d.name, d.degrees, d.links.map (List.map YVLink.link), d.joints⟩

/-- `struct ParserResult`, common.h:228-237, with the visuals. -/
structure FResult (K : Type) where
  core : PResult K
  visual : VMap K
  collision : VMap K

section
variable [Scalar K]

/-- `from_urdf(content, params)`, urdf.cpp:618-632, the robot and the visuals. The code reads the visuals of a link right after
the link: only which exception comes first can be different here. -/
def fromURDFDoc (env : ParserEnv K) (doc : Option (XDoc K)) (params : ParserParams) : Res (FResult K) := do
  let r ← fromURDF env (doc.map XDoc.robot) params
  match doc with
  | none => .error .runtimeError
  | some d =>
    let (visual, collision) ← urdfVisuals params d.materials d.links
    return ⟨r, visual, collision⟩

/-- `from_yaml(content, params)`, yaml.cpp:733-739, the robot and the visuals. Same remark. -/
def fromYAMLDoc (env : ParserEnv K) (doc : Option (YDoc K)) (params : ParserParams) : Res (FResult K) := do
  let r ← fromYAML env (doc.map YDoc.robot) params
  match doc with
  | none => .error .runtimeError
  | some d =>
    let (visual, collision) ← yamlVisuals env params (d.degrees.getD false) d.materials (d.links.getD [])
    return ⟨r, visual, collision⟩

/-- `to_urdf(res)`, to_urdf.cpp:11-418, with the visuals. -/
def toURDFDoc (env : ParserEnv K) (r : FResult K) : Res (XDoc K) := do
  let d ← toURDF env r.core
  let links ← writeXVLinks env r.visual r.collision r.core.mb.bodies
  return ⟨d.name, [], links, d.joints⟩

/-- `to_yaml(res)`, to_yaml.cpp:10-390, with the visuals. -/
def toYAMLDoc (env : ParserEnv K) (r : FResult K) : Res (YDoc K) := do
  let d ← toYAML env r.core
  let links ← writeYVLinks env r.visual r.collision r.core.mb.bodies
  return ⟨d.name, d.degrees, [], some links, d.joints⟩

end

/-! ### urdf_yaml_conv.cpp -/

/-- A text. -/
abbrev Text := List Char

/-- What tinyxml2 and yaml-cpp do: from a text to a document and back. `none` is a text that has no document. -/
structure Formats (K : Type) where
  parseX : Text → Option (XDoc K)
  parseY : Text → Option (YDoc K)
  printX : XDoc K → Text
  printY : YDoc K → Text

/-- An input stream: what `in.rdbuf()->in_avail()` returns and what can be read up to the end. -/
structure Stream where
  avail : Int
  data : Text
  deriving DecidableEq, Repr

/-- `std::getline(in, line)`: the line and what remains, `none` when nothing can be extracted. -/
def getline : Text → Option (Text × Text)
  | [] => none
  | c :: cs => some ((c :: cs).takeWhile (· != '\n'), ((c :: cs).dropWhile (· != '\n')).drop 1)

theorem getline_lt {cs l rest : Text} (h : getline cs = some (l, rest)) : rest.length < cs.length := by
  cases cs with
  | nil => simp [getline] at h
  | cons c cs =>
    simp only [getline, Option.some.injEq, Prod.mk.injEq] at h
    rw [← h.2, List.length_drop]
    have := List.dropWhile_suffix (l := c :: cs) (· != '\n') |>.length_le
    simp only [List.length_cons] at this ⊢
    omega

/-- The loop of `getContent`, urdf_yaml_conv.cpp:24-27. -/
def getLines (cs : Text) : Text :=
  match h : getline cs with
  | none => []
  | some (line, rest) => line ++ '\n' :: getLines rest
termination_by cs.length
decreasing_by exact getline_lt h

/-- `getContent(in)`, urdf_yaml_conv.cpp:11-29. -/
def getContent (s : Stream) : Text := if s.avail = 0 then [] else getLines s.data

/-- `content.find(p)`: the first position where `p` is found. -/
def findText (p : Text) : Text → Option Nat
  | [] => if p = [] then some 0 else none
  | c :: cs => if p.isPrefixOf (c :: cs) then some 0 else (findText p cs).map (· + 1)

/-- The format the program finds from the text, urdf_yaml_conv.cpp:92-117: `none` when it gives up. -/
def detect (content : Text) : Option FileFormat :=
  match findText "robot".toList content with
  | none => none
  | some pos =>
    if 0 < pos && content[pos - 1]? = some '<' then some .urdf
    else if pos + 5 < content.length && content[pos + 5]? = some ':' then some .yaml
    else none

/-- The files of the system: what reading a file gives, `none` when it cannot be opened, and whether a file can be opened for
writing. -/
structure Files where
  read : String → Option Stream
  canWrite : String → Bool

/-- Where the program writes. -/
inductive Sink where
  | stdout | file (path : String)
  deriving DecidableEq, Repr

/-- How the program ends: its exit code and what it wrote, if it wrote a conversion. -/
structure Outcome where
  code : Int
  output : Option (Sink × Text)
  deriving DecidableEq, Repr

section
variable [Scalar K]

/-- The two conversions, urdf_yaml_conv.cpp:99-129: the readers are called with their default arguments. -/
def convertText (env : ParserEnv K) (F : Formats K) (fmt : FileFormat) (content : Text) : Res Text :=
  match fmt with
  | .urdf => do
    let r ← fromURDFDoc env (F.parseX content) {}
    let d ← toYAMLDoc env r
    return F.printY d
  | .yaml => do
    let r ← fromYAMLDoc env (F.parseY content) {}
    let d ← toURDFDoc env r
    return F.printX d

/-- From the content to the end of `main`, urdf_yaml_conv.cpp:92-150. -/
def convertContent (env : ParserEnv K) (F : Formats K) (fs : Files) (out : Option String) (content : Text) : Res Outcome :=
  match detect content with
  | none => .ok ⟨-1, none⟩
  | some fmt => do
    let t ← convertText env F fmt content
    match out with
    | some path => return if fs.canWrite path then ⟨0, some (.file path, t)⟩ else ⟨-1, none⟩
    | none => return ⟨0, some (.stdout, t ++ ['\n'])⟩

/-- `main(argc, argv)`, urdf_yaml_conv.cpp:31-151. `args` is `argv[1]`, `argv[2]`, ... An exception nothing catches is an error. -/
def convMain (env : ParserEnv K) (F : Formats K) (stdin : Stream) (fs : Files) (args : List String) : Res Outcome :=
  if args = ["-h"] || args = ["--help"] then .ok ⟨0, none⟩
  else if 2 < args.length then .ok ⟨-1, none⟩
  else
    let stdinContent := getContent stdin
    let fileInput := stdinContent.length == 0
    let fileOutput := (fileInput && args.length == 2) || (!fileInput && args.length == 1)
    let out := if fileOutput then args.getLast? else none
    if fileInput then
      match args with
      | [] => .ok ⟨-1, none⟩
      | input :: _ =>
        match fs.read input with
        | none => .ok ⟨-1, none⟩
        | some s => convertContent env F fs out (getContent s)
    else convertContent env F fs out stdinContent

end

end RBDyn
