import Verif.Model.Conv

/-!
Model of the functions by which a program or a python script reads a robot: the overloads of `from_urdf`, `from_urdf_file`,
`from_yaml`, `from_yaml_file` and `from_file` (`src/parsers/urdf.cpp`, `src/parsers/yaml.cpp`, `src/parsers/common.cpp`), and
the functions of `binding/python/rbdyn/parsers/parsers.pyx`.

Not modelled: the encoding of python strings to ascii (a string with other characters raises an exception).
-/

namespace RBDyn

/-- The options set one by one by the overloads with positional arguments, common.cpp:11-25, urdf.cpp:584-615, with the
setters of `ParserParameters`, common.h:169-225. -/
def positionalParams (fixed : Bool) (filtered : List String) (transformInertia : Bool) (baseLink : String)
    (withVirtual : Bool) (sphericalSuffix : String) : ParserParams :=
  { ({} : ParserParams) with
    fixed := fixed, filtered := filtered, transformInertia := transformInertia, baseLink := baseLink,
    removeVirtual := !withVirtual, sphericalSuffix := sphericalSuffix }

/-- What the members of `RBDynFromYAML` are after its constructor, yaml.cpp:45-56, as options; the last argument has a
default, yaml.h:26-34. -/
def yamlCtorParams (fixed : Bool) (filtered : List String) (transformInertia : Bool) (baseLink : String)
    (withVirtual : Bool) (sphericalSuffix : String) (removeFiltered : Bool := true) : ParserParams :=
  ⟨fixed, filtered, removeFiltered, transformInertia, baseLink, !withVirtual, sphericalSuffix⟩

variable {K : Type} [Scalar K]

/-- `from_urdf(content, params)`, urdf.cpp:618-632, on a text. -/
def fromURDFText (env : ParserEnv K) (F : Formats K) (content : Text) (params : ParserParams) : Res (FResult K) :=
  fromURDFDoc env (F.parseX content) params

/-- `from_urdf(content, fixed, ...)`, urdf.cpp:584-599. -/
def fromURDFTextPos (env : ParserEnv K) (F : Formats K) (content : Text) (fixed : Bool) (filtered : List String)
    (transformInertia : Bool) (baseLink : String) (withVirtual : Bool) (sphericalSuffix : String) : Res (FResult K) :=
  fromURDFText env F content (positionalParams fixed filtered transformInertia baseLink withVirtual sphericalSuffix)

/-- `from_urdf_file(file_path, params)`, urdf.cpp:634-643. -/
def fromURDFFile (env : ParserEnv K) (F : Formats K) (fs : Files) (path : String) (params : ParserParams) : Res (FResult K) :=
  match fs.read path with
  | none => .error .runtimeError
  | some s => fromURDFText env F s.data params

/-- `from_urdf_file(file_path, fixed, ...)`, urdf.cpp:601-616. -/
def fromURDFFilePos (env : ParserEnv K) (F : Formats K) (fs : Files) (path : String) (fixed : Bool) (filtered : List String)
    (transformInertia : Bool) (baseLink : String) (withVirtual : Bool) (sphericalSuffix : String) : Res (FResult K) :=
  fromURDFFile env F fs path (positionalParams fixed filtered transformInertia baseLink withVirtual sphericalSuffix)

/-- `from_yaml(content, params)`, yaml.cpp:733-739. -/
def fromYAMLText (env : ParserEnv K) (F : Formats K) (content : Text) (params : ParserParams) : Res (FResult K) :=
  fromYAMLDoc env (F.parseY content) (yamlCtorParams params.fixed params.filtered params.transformInertia params.baseLink
    (!params.removeVirtual) params.sphericalSuffix params.removeFiltered)

/-- `from_yaml(content, fixed, ...)`, yaml.cpp:720-731. -/
def fromYAMLTextPos (env : ParserEnv K) (F : Formats K) (content : Text) (fixed : Bool) (filtered : List String)
    (transformInertia : Bool) (baseLink : String) (withVirtual : Bool) (sphericalSuffix : String) : Res (FResult K) :=
  fromYAMLDoc env (F.parseY content) (yamlCtorParams fixed filtered transformInertia baseLink withVirtual sphericalSuffix)

/-- `from_yaml_file(file_path, params)`, yaml.cpp:754-760, with `YAML::LoadFile`, yaml.cpp:63-71, which throws
`YAML::BadFile`, a `std::runtime_error`, when the file cannot be opened. -/
def fromYAMLFile (env : ParserEnv K) (F : Formats K) (fs : Files) (path : String) (params : ParserParams) : Res (FResult K) :=
  match fs.read path with
  | none => .error .runtimeError
  | some s => fromYAMLDoc env (F.parseY s.data) (yamlCtorParams params.fixed params.filtered params.transformInertia
      params.baseLink (!params.removeVirtual) params.sphericalSuffix params.removeFiltered)

/-- `from_yaml_file(file_path, fixed, ...)`, yaml.cpp:741-752. -/
def fromYAMLFilePos (env : ParserEnv K) (F : Formats K) (fs : Files) (path : String) (fixed : Bool) (filtered : List String)
    (transformInertia : Bool) (baseLink : String) (withVirtual : Bool) (sphericalSuffix : String) : Res (FResult K) :=
  match fs.read path with
  | none => .error .runtimeError
  | some s => fromYAMLDoc env (F.parseY s.data)
      (yamlCtorParams fixed filtered transformInertia baseLink withVirtual sphericalSuffix)

/-- `from_file(file_path, params)`, common.cpp:27-45. -/
def fromFile (env : ParserEnv K) (F : Formats K) (fs : Files) (path : String) (params : ParserParams) : Res (FResult K) := do
  match ← fileFormat path with
  | .yaml => fromYAMLFile env F fs path params
  | .urdf => fromURDFFile env F fs path params

/-- `from_file(file_path, fixed, ...)`, common.cpp:10-25. -/
def fromFilePos (env : ParserEnv K) (F : Formats K) (fs : Files) (path : String) (fixed : Bool) (filtered : List String)
    (transformInertia : Bool) (baseLink : String) (withVirtual : Bool) (sphericalSuffix : String) : Res (FResult K) :=
  fromFile env F fs path (positionalParams fixed filtered transformInertia baseLink withVirtual sphericalSuffix)

/-- The arguments of the five python functions, parsers.pyx:316-434. -/
structure PyReadArgs where
  fixed : Bool := true
  filtered : Option (List String) := none
  transformInertia : Bool := true
  baseLink : String := ""
  withVirtual : Bool := true
  deriving DecidableEq, Repr

/-- `from_urdf`, parsers.pyx:316-337. The suffix is the default of the C++ function. -/
def pyFromURDF (env : ParserEnv K) (F : Formats K) (content : Text) (a : PyReadArgs) : Res (FResult K) :=
  fromURDFTextPos env F content a.fixed (a.filtered.getD []) a.transformInertia a.baseLink a.withVirtual "_spherical"

/-- `from_urdf_file`, parsers.pyx:340-361. -/
def pyFromURDFFile (env : ParserEnv K) (F : Formats K) (fs : Files) (path : String) (a : PyReadArgs) : Res (FResult K) :=
  fromURDFFilePos env F fs path a.fixed (a.filtered.getD []) a.transformInertia a.baseLink a.withVirtual "_spherical"

/-- `from_yaml`, parsers.pyx:364-385. -/
def pyFromYAML (env : ParserEnv K) (F : Formats K) (content : Text) (a : PyReadArgs) : Res (FResult K) :=
  fromYAMLTextPos env F content a.fixed (a.filtered.getD []) a.transformInertia a.baseLink a.withVirtual "_spherical"

/-- `from_yaml_file`, parsers.pyx:388-409. -/
def pyFromYAMLFile (env : ParserEnv K) (F : Formats K) (fs : Files) (path : String) (a : PyReadArgs) : Res (FResult K) :=
  fromYAMLFilePos env F fs path a.fixed (a.filtered.getD []) a.transformInertia a.baseLink a.withVirtual "_spherical"

/-- `from_file`, parsers.pyx:412-433. -/
def pyFromFile (env : ParserEnv K) (F : Formats K) (fs : Files) (path : String) (a : PyReadArgs) : Res (FResult K) :=
  fromFilePos env F fs path a.fixed (a.filtered.getD []) a.transformInertia a.baseLink a.withVirtual "_spherical"

end RBDyn
