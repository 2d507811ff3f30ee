import Verif.OutPath.Model

/-!
# Options of the code generator and its configuration

Models the options of the protoc plugin (`generator/generator.go` lines 742-932, `generator/config.go` lines
42-47) and the plugins of the configuration (`generator/config.go` lines 109-167).
-/

namespace Verif.GenOpt

open Verif.OutPath

def kModule : Text := ['m', 'o', 'd', 'u', 'l', 'e']
def kPaths : Text := ['p', 'a', 't', 'h', 's']
def kPlugins : Text := ['p', 'l', 'u', 'g', 'i', 'n', 's']
def kImportPaths : Text := ['i', 'm', 'p', 'o', 'r', 't', '_', 'p', 'a', 't', 'h', 's']
def vSourceRelative : Text := ['s', 'o', 'u', 'r', 'c', 'e', '_', 'r', 'e', 'l', 'a', 't', 'i', 'v', 'e']
def vImport : Text := ['i', 'm', 'p', 'o', 'r', 't']

inductive Scheme where
  | file | http | https
deriving DecidableEq

/-- The text of a scheme, `generator/generator.go` lines 817-819. -/
def Scheme.text : Scheme → Text
  | .file => ['f', 'i', 'l', 'e', ':', '/', '/']
  | .http => ['h', 't', 't', 'p', ':', '/', '/']
  | .https => ['h', 't', 't', 'p', 's', ':', '/', '/']

/-- A plugin option: where its file is and its hash.  Simplification: instead of the absolute path (lines
844-850) or of the downloaded file (lines 863, 879 of `generator/generator.go`), what it was made from. -/
structure Plugin where
  scheme : Scheme
  location : Text
  hash : Text
deriving DecidableEq

/-- `CodeGeneratorOption`, `generator/generator.go` lines 742-745. -/
structure Options where
  cfg : Cfg
  plugins : List Plugin

/-- The options without any text; `ImportMode` is the zero value (`resolver/file.go` line 122). -/
def noOptions : Options := ⟨⟨.import, [], []⟩, []⟩

/-- `splitOptPattern`, `generator/generator.go` lines 918-927. -/
def splitOptPattern (pat : Text) : Option (Text × Text) :=
  match split '=' pat with
  | [k, v] => some (k, v)
  | _ => none

/-- `parseFileSchemeOption`, `parseHTTPSchemeOption` and `parseHTTPSSchemeOption`,
`generator/generator.go` lines 838-888.  Simplification: downloads succeed. -/
def parseLocation (s : Scheme) (o : Options) (value : Text) : Option Options :=
  match split ':' value with
  | [loc, hash] => some { o with plugins := o.plugins ++ [⟨s, loc, hash⟩] }
  | _ => none

/-- `parsePluginsOption`, `generator/generator.go` lines 823-836; `order` is the order in which the map of
schemes is visited. -/
def parsePlugins (order : List Scheme) (o : Options) (value : Text) : Option Options :=
  match order with
  | [] => none
  | s :: rest =>
    if s.text.isPrefixOf value then parseLocation s o (trimPrefix s.text value) else parsePlugins rest o value

/-- `parsePathsOption`, `generator/generator.go` lines 803-813. -/
def parsePaths (o : Options) (value : Text) : Option Options :=
  if value = vSourceRelative then some { o with cfg := { o.cfg with mode := .sourceRelative } }
  else if value = vImport then some { o with cfg := { o.cfg with mode := .import } }
  else none

/-- `parseModuleOption`, `generator/generator.go` lines 794-801. -/
def parseModule (o : Options) (value : Text) : Option Options :=
  if value = [] then none else some { o with cfg := { o.cfg with mode := .modulePrefix, «prefix» := value } }

/-- The switch of `parseOpt`, `generator/generator.go` lines 771-790; the last case is
`parseImportPathsOption`, lines 929-932. -/
def parseKind (order : List Scheme) (o : Options) (kind value : Text) : Option Options :=
  if kind = kModule then parseModule o value
  else if kind = kPaths then parsePaths o value
  else if kind = kPlugins then parsePlugins order o value
  else if kind = kImportPaths then
    some { o with cfg := { o.cfg with importPaths := o.cfg.importPaths ++ [comps value] } }
  else none

/-- `parseOpt`, `generator/generator.go` lines 762-792. -/
def parseOpt (order : List Scheme) (o : Options) (pat : Text) : Option Options :=
  if pat = [] then some o
  else
    match splitOptPattern pat with
    | none => none
    | some (kind, value) => parseKind order o kind value

def parseAll (order : List Scheme) (o : Options) : List Text → Option Options
  | [] => some o
  | p :: ps =>
    match parseOpt order o p with
    | none => none
    | some o => parseAll order o ps

/-- `parseOptString`, `generator/generator.go` lines 752-760, 909-911. -/
def parseOptString (order : List Scheme) (opt : Text) : Option Options :=
  parseAll order noOptions (split ',' opt)

/-- `strings.Join(o.Opts, ",")`, `generator/config.go` lines 42-47. -/
def joinOpts : List Text → Text
  | [] => []
  | [t] => t
  | t :: u :: us => t ++ ',' :: joinOpts (u :: us)

/-! ## Plugins of the configuration -/

def genPrefix : Text := ['p', 'r', 'o', 't', 'o', 'c', '-', 'g', 'e', 'n', '-']

/-- `PluginConfig`, `generator/config.go` lines 29-36, without the path of the installed plugin. -/
structure PluginConfig where
  name : Text
  opts : List Text
deriving DecidableEq

/-- `generator/config.go` lines 113-116. -/
def fullName (n : Text) : Text := if genPrefix.isPrefixOf n then n else genPrefix ++ n

/-- `addStandardPlugin`, `generator/config.go` lines 160-167. -/
def standard (n : Text) : PluginConfig := ⟨n, [kPaths ++ '=' :: vSourceRelative]⟩

/-- `setupConfig`, `generator/config.go` lines 109-129, and `lookupProtocPlugin`, lines 149-158.
`installed` says which plugins are found on the system, `order` are the entries of the map of standard
plugins (`createStandardPluginMap`, lines 141-147) in the order in which they are visited. -/
def setupConfig (installed : Text → Bool) (order : List (Text × Bool)) (plugins : List PluginConfig) :
    Option (List PluginConfig) :=
  if (plugins.map fun p => fullName p.name).all fun n => installed n || order.any (·.1 = n) then
    let named := plugins.map fun p => { p with name := fullName p.name }
    some (named ++ (order.filter fun s => !(named.any fun p => p.name = s.1) && s.2).map fun s => standard s.1)
  else none

end Verif.GenOpt
