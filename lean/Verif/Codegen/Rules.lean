import Verif.Codegen.Expr

/-!
# The request of code generation plugins: files, services, methods, messages, fields, enums and plugins

Models the encoding of the objects of a file and of their options (`grpc/federation/generator/encode.go` lines 71-356,
382-413, 451-501, 515-570, 584-600, 614-648, 662-703) and their decoding (`grpc/federation/generator/decode.go` lines 95-401,
421-474, 494-559, 610-626, 651-672, 692-741, 1509-1563, 1583-1644, 1675-1744, 1764-1824).

References are identifiers. On the side of the resolver a missing reference is `none`; in the request it is the empty
identifier. Lists of the resolver have no nil elements. What the maps contain under the identifiers is the subject of
`Verif.Codegen.Graph`. The descriptors of files, services, methods, messages and fields (`Desc` in `resolver/types.go` lines 38,
57, 68, 129, 347) have no counterpart in the request. Nor has the checked expression of a CEL value (`resolver/types.go` line 524),
which the model leaves out.

Simplified as in `Verif.Codegen.Expr`.
-/

namespace Verif.Codegen

/-- `GetId()` of an encoded object: empty for a missing one (for example `grpc/federation/generator/encode.go` line 169). -/
def encRef : Option Name → Name
  | none => []
  | some n => n

/-- The start of the functions `toFile`, `toService`, `toMessage` and so on: no object for an empty identifier
(`grpc/federation/generator/decode.go` lines 96-98, 188-190, 422-424, 495-497). -/
def decRef (n : Name) : Option Name := if n = [] then none else some n

/-- `toServices`, `toMessages`, `toFields`, `toOneofs`, `toMethods`, `toEnums`, `toEnumValues`, `toCELPlugins`: elements without object are
skipped (`grpc/federation/generator/decode.go` lines 169-185, 403-419, 476-492, 674-690, 1491-1507, 1565-1581, 1660-1673, 1746-1762). -/
def decRefs (l : List Name) : List Name := l.filterMap decRef

/-- `decoder.toFiles`, `grpc/federation/generator/decode.go` lines 80-93: the only list that keeps them. -/
def decFiles (l : List Name) : List (Option Name) := l.map decRef

/-- `encoder.toFiles`, `grpc/federation/generator/encode.go` lines 122-132: missing files are skipped. -/
def encFiles (l : List (Option Name)) : List Name := (l.filter (· ≠ none)).map encRef

/-- `GoPackage` on both sides (`resolver/types.go` lines 48-52). -/
structure GoPkg where
  name : Name
  importPath : Name
  aliasName : Name
deriving DecidableEq, Repr

/-- `resolver.File` (`resolver/types.go` lines 34-44) with its package (lines 15-18). -/
structure RFile where
  pkgName : Name
  pkgFiles : List (Option Name)
  goPackage : Option GoPkg
  name : Name
  desc : Option Name
  imports : List (Option Name)
  services : List Name
  messages : List Name
  enums : List Name
  plugins : List Name
deriving DecidableEq, Repr

/-- `plugin.File` and `plugin.Package`. -/
structure PFile where
  pkgName : Name
  pkgFiles : List Name
  goPackage : Option GoPkg
  name : Name
  imports : List Name
  services : List Name
  messages : List Name
  enums : List Name
  plugins : List Name
deriving DecidableEq, Repr

/-- `encoder.toGoPackage`, `grpc/federation/generator/encode.go` lines 114-120: `none` is the nil dereference of a missing package. -/
def encGoPkg : Option GoPkg → Option GoPkg
  | none => none
  | some p => some ⟨p.name, p.importPath, p.aliasName⟩

/-- `encoder.toFile` and `toPackage`, `grpc/federation/generator/encode.go` lines 71-112. `none` is a panic. -/
def encFile (f : RFile) : Option PFile :=
  match encGoPkg f.goPackage with
  | none => none
  | some g => some ⟨f.pkgName, encFiles f.pkgFiles, some g, f.name, encFiles f.imports, f.services, f.messages, f.enums, f.plugins⟩

/-- `decoder.toFile`, `toPackage` and `toGoPackage`, `grpc/federation/generator/decode.go` lines 95-167. -/
def decFile (f : PFile) : RFile where
  pkgName := f.pkgName
  pkgFiles := decFiles f.pkgFiles
  goPackage := f.goPackage.map (fun p => ⟨p.name, p.importPath, p.aliasName⟩)
  name := f.name
  desc := none
  imports := decFiles f.imports
  services := decRefs f.services
  messages := decRefs f.messages
  enums := decRefs f.enums
  plugins := decRefs f.plugins

/-- `EnvVarOption` on both sides (`resolver/types.go` lines 89-94). -/
structure EnvOpt where
  alternate : Name
  default : Name
  required : Bool
  ignored : Bool
deriving DecidableEq, Repr

/-- `encoder.toEnvVarOption`, `grpc/federation/generator/encode.go` lines 284-294. -/
def encEnvOpt (o : EnvOpt) : EnvOpt where
  alternate := o.alternate
  default := o.default
  required := o.required
  ignored := o.ignored

/-- `decoder.toEnvVarOption`, `grpc/federation/generator/decode.go` lines 296-306. -/
def decEnvOpt (o : EnvOpt) : EnvOpt where
  alternate := o.alternate
  default := o.default
  required := o.required
  ignored := o.ignored

/-- `EnvVar` on both sides (`resolver/types.go` lines 83-87). -/
structure EnvVar (T : Type) where
  name : Name
  ty : Option T
  option : Option EnvOpt
deriving DecidableEq, Repr

/-- `toEnvVar`, `encode.go` lines 273-282 and `decode.go` lines 281-294. -/
def EnvVar.conv {T T' : Type} (f : T → T') (g : EnvOpt → EnvOpt) (v : EnvVar T) : EnvVar T' := ⟨v.name, v.ty.map f, v.option.map g⟩

/-- `resolver.ServiceVariableExpr` (`resolver/types.go` lines 102-109); a validation is its condition and message (lines 111-114). -/
structure SExpr where
  ty : Option Ty
  «by» : Option (CEL Ty)
  map : Option (MapE IterExpr)
  message : Option (Msg Ty)
  enum : Option (EnumE Ty)
  validation : Option (Option (CEL Ty) × Option (CEL Ty))
deriving DecidableEq, Repr

/-- `plugin.ServiceVariableExpr.Expr`. -/
inductive PSExpr where
  | by (c : CEL PTy)
  | map (m : MapE (Option PTy × Option PIter))
  | message (m : Msg PTy)
  | enum (e : EnumE PTy)
  | validation (cond msg : Option (CEL PTy))
deriving DecidableEq, Repr

/-- `encoder.toServiceVariableExpr`, `toServiceVariableValidationExpr`, `grpc/federation/generator/encode.go` lines 210-250: the first
expression that is set. -/
def encSExpr (e : SExpr) : Option PTy × Option PSExpr :=
  (e.ty.map encTy,
    match e.by, e.map, e.message, e.enum, e.validation with
    | some c, _, _, _, _ => some (.by (c.conv encTy))
    | none, some m, _, _, _ => some (.map (encMap m))
    | none, none, some m, _, _ => some (.message (encMsg m))
    | none, none, none, some x, _ => some (.enum (x.conv encTy))
    | none, none, none, none, some v => some (.validation (v.1.map (CEL.conv encTy)) (v.2.map (CEL.conv encTy)))
    | none, none, none, none, none => none)

/-- `decoder.toServiceVariableExpr`, `toServiceVariableValidationExpr`, `grpc/federation/generator/decode.go` lines 346-401. -/
def decSExpr (e : Option PTy × Option PSExpr) : Except Unit SExpr :=
  let ty := e.1.map decTy
  match e.2 with
  | none => .ok ⟨ty, none, none, none, none, none⟩
  | some (.by c) => .ok ⟨ty, some (c.conv decTy), none, none, none, none⟩
  | some (.map m) =>
    match decMap m with
    | .error e => .error e
    | .ok m' => .ok ⟨ty, none, some m', none, none, none⟩
  | some (.message m) =>
    match decMsg m with
    | .error e => .error e
    | .ok m' => .ok ⟨ty, none, none, some m', none, none⟩
  | some (.enum x) => .ok ⟨ty, none, none, none, some (x.conv decTy), none⟩
  | some (.validation c m) => .ok ⟨ty, none, none, none, none, some (c.map (CEL.conv decTy), m.map (CEL.conv decTy))⟩

/-- `ServiceVariable` on both sides (`resolver/types.go` lines 96-100). -/
structure SVar (C X : Type) where
  name : Name
  ifv : Option C
  expr : Option X
deriving DecidableEq, Repr

/-- `encoder.toServiceVariable`, `grpc/federation/generator/encode.go` lines 198-208. -/
def encSVar (v : SVar (CEL Ty) SExpr) : SVar (CEL PTy) (Option PTy × Option PSExpr) := ⟨v.name, v.ifv.map (CEL.conv encTy), v.expr.map encSExpr⟩

/-- `decoder.toServiceVariable`, `grpc/federation/generator/decode.go` lines 326-344. -/
def decSVar (v : SVar (CEL PTy) (Option PTy × Option PSExpr)) : Except Unit (SVar (CEL Ty) SExpr) :=
  match v.expr with
  | none => .ok ⟨v.name, v.ifv.map (CEL.conv decTy), none⟩
  | some x =>
    match decSExpr x with
    | .error e => .error e
    | .ok x' => .ok ⟨v.name, v.ifv.map (CEL.conv decTy), some x'⟩

/-- `decoder.toServiceVariables`, `grpc/federation/generator/decode.go` lines 308-324. -/
def decSVars : List (SVar (CEL PTy) (Option PTy × Option PSExpr)) → Except Unit (List (SVar (CEL Ty) SExpr))
  | [] => .ok []
  | v :: vs =>
    match decSVar v with
    | .error e => .error e
    | .ok x =>
      match decSVars vs with
      | .error e => .error e
      | .ok xs => .ok (x :: xs)

/-- `ServiceRule` on both sides (`resolver/types.go` lines 74-77); `Env` is its list of variables (lines 79-81). -/
structure SRule (T V : Type) where
  env : Option (List (EnvVar T))
  vars : List V
deriving DecidableEq, Repr

abbrev RSRule := SRule Ty (SVar (CEL Ty) SExpr)
abbrev PSRule := SRule PTy (SVar (CEL PTy) (Option PTy × Option PSExpr))

/-- `encoder.toServiceRule`, `toEnv`, `toEnvVars`, `toServiceVariables`, `grpc/federation/generator/encode.go` lines 174-196, 252-271. -/
def encSRule (r : RSRule) : PSRule := ⟨r.env.map (·.map (EnvVar.conv encTy encEnvOpt)), r.vars.map encSVar⟩

/-- `decoder.toServiceRule`, `toEnv`, `toEnvVars`, `grpc/federation/generator/decode.go` lines 235-279: `toEnv` does not look whether there is an environment. -/
def decSRule (r : PSRule) : Except Unit RSRule :=
  match decSVars r.vars with
  | .error e => .error e
  | .ok vs => .ok ⟨some ((r.env.getD []).map (EnvVar.conv decTy decEnvOpt)), vs⟩

/-- `resolver.Service` (`resolver/types.go` lines 54-63). -/
structure RService where
  file : Option Name
  name : Name
  desc : Option Name
  methods : List Name
  rule : Option RSRule
  messages : List Name
  messageArgs : List Name
  plugins : List Name
deriving DecidableEq, Repr

/-- `plugin.Service`. -/
structure PService where
  file : Name
  name : Name
  methods : List Name
  rule : Option PSRule
  messages : List Name
  messageArgs : List Name
  plugins : List Name
deriving DecidableEq, Repr

/-- `encoder.toService`, `grpc/federation/generator/encode.go` lines 146-172. -/
def encService (s : RService) : PService :=
  ⟨encRef s.file, s.name, s.methods, s.rule.map encSRule, s.messages, s.messageArgs, s.plugins⟩

/-- `decoder.toService`, `grpc/federation/generator/decode.go` lines 187-233. -/
def decService (s : PService) : Except Unit RService :=
  match s.rule with
  | none => .ok ⟨decRef s.file, s.name, none, decRefs s.methods, none, decRefs s.messages, decRefs s.messageArgs, decRefs s.plugins⟩
  | some r =>
    match decSRule r with
    | .error e => .error e
    | .ok r' => .ok ⟨decRef s.file, s.name, none, decRefs s.methods, some r', decRefs s.messages, decRefs s.messageArgs, decRefs s.plugins⟩

/-- `resolver.Method` (`resolver/types.go` lines 65-72); a rule is its timeout and response (lines 121-124). -/
structure RMethod where
  service : Option Name
  name : Name
  desc : Option Name
  request : Option Name
  response : Option Name
  rule : Option (Option Int × Option Name)
deriving DecidableEq, Repr

/-- `plugin.Method`. -/
structure PMethod where
  service : Name
  name : Name
  request : Name
  response : Name
  rule : Option (Option (Int × Int) × Name)
deriving DecidableEq, Repr

/-- `encoder.toMethod` and `toMethodRule`, `grpc/federation/generator/encode.go` lines 614-648. -/
def encMethod (m : RMethod) : PMethod :=
  ⟨encRef m.service, m.name, encRef m.request, encRef m.response, m.rule.map (fun r => (r.1.map encDuration, encRef r.2))⟩

/-- `decoder.toMethod` and `toMethodRule`, `grpc/federation/generator/decode.go` lines 1509-1563. -/
def decMethod (m : PMethod) : RMethod :=
  ⟨decRef m.service, m.name, none, decRef m.request, decRef m.response, m.rule.map (fun r => (r.1.map decDuration, decRef r.2))⟩

/-- `resolver.MessageRule` (`resolver/types.go` lines 173-178). -/
structure RMsgRule where
  argument : Option Name
  customResolver : Bool
  aliases : List Name
  defSet : Option DefSet
deriving DecidableEq, Repr

/-- `plugin.MessageRule`. -/
structure PMsgRule where
  argument : Name
  customResolver : Bool
  aliases : List Name
  defSet : DefSet
deriving DecidableEq, Repr

/-- `encoder.toMessageRule`, `grpc/federation/generator/encode.go` lines 341-356. -/
def encMsgRule (r : RMsgRule) : PMsgRule := ⟨encRef r.argument, r.customResolver, r.aliases, encDefSet r.defSet⟩

/-- `decoder.toMessageRule`, `grpc/federation/generator/decode.go` lines 719-741. -/
def decMsgRule (r : PMsgRule) : RMsgRule := ⟨decRef r.argument, r.customResolver, decRefs r.aliases, some r.defSet⟩

/-- `resolver.Message` (`resolver/types.go` lines 126-137). -/
structure RMessage where
  file : Option Name
  name : Name
  desc : Option Name
  isMapEntry : Bool
  parent : Option Name
  nested : List Name
  enums : List Name
  fields : List Name
  oneofs : List Name
  rule : Option RMsgRule
deriving DecidableEq, Repr

/-- `plugin.Message`. -/
structure PMessage where
  file : Name
  name : Name
  isMapEntry : Bool
  parent : Name
  nested : List Name
  enums : List Name
  fields : List Name
  oneofs : List Name
  rule : Option PMsgRule
deriving DecidableEq, Repr

/-- `encoder.toMessage`, `grpc/federation/generator/encode.go` lines 308-339. -/
def encMessage (m : RMessage) : PMessage :=
  ⟨encRef m.file, m.name, m.isMapEntry, encRef m.parent, m.nested, m.enums, m.fields, m.oneofs, m.rule.map encMsgRule⟩

/-- `decoder.toMessage`, `grpc/federation/generator/decode.go` lines 421-474. -/
def decMessage (m : PMessage) : RMessage :=
  ⟨decRef m.file, m.name, none, m.isMapEntry, decRef m.parent, decRefs m.nested, decRefs m.enums, decRefs m.fields, decRefs m.oneofs, m.rule.map decMsgRule⟩

/-- `FieldOneofRule` on both sides (`resolver/types.go` lines 381-386). -/
structure OneofRule (T S : Type) where
  ifv : Option (CEL T)
  default : Bool
  by' : Option (CEL T)
  defSet : S
deriving DecidableEq, Repr

/-- `toFieldOneofRule`, `encode.go` lines 561-570 and `decode.go` lines 651-672. -/
def OneofRule.conv {T T' S S' : Type} (f : T → T') (g : S → S') (r : OneofRule T S) : OneofRule T' S' :=
  ⟨r.ifv.map (CEL.conv f), r.default, r.by'.map (CEL.conv f), g r.defSet⟩

/-- `resolver.FieldRule` (`resolver/types.go` lines 363-378); `autoBind` is a variable and a field (lines 358-361). -/
structure RFieldRule where
  value : Option (Value Ty)
  customResolver : Bool
  messageCustomResolver : Bool
  aliases : List Name
  autoBind : Option (Option Name × Option Name)
  oneof : Option (OneofRule Ty (Option DefSet))
  env : Option EnvOpt
deriving DecidableEq, Repr

/-- `plugin.FieldRule`. -/
structure PFieldRule where
  value : Option (Value PTy)
  customResolver : Bool
  messageCustomResolver : Bool
  aliases : List Name
  autoBind : Option (Name × Name)
  oneof : Option (OneofRule PTy DefSet)
deriving DecidableEq, Repr

/-- `encoder.toFieldRule` and `toAutoBindField`, `grpc/federation/generator/encode.go` lines 533-559: no field for the environment variable. -/
def encFieldRule (r : RFieldRule) : PFieldRule :=
  ⟨r.value.map encValue, r.customResolver, r.messageCustomResolver, r.aliases, r.autoBind.map (fun a => (encRef a.1, encRef a.2)),
    r.oneof.map (OneofRule.conv encTy encDefSet)⟩

/-- `decoder.toFieldRule` and `toAutoBindField`, `grpc/federation/generator/decode.go` lines 530-559, 610-626. -/
def decFieldRule (r : PFieldRule) : Except Unit RFieldRule :=
  match r.value with
  | none => .ok ⟨none, r.customResolver, r.messageCustomResolver, decRefs r.aliases, r.autoBind.map (fun a => (decRef a.1, decRef a.2)),
      r.oneof.map (OneofRule.conv decTy some), none⟩
  | some v =>
    match decValue v with
    | .error e => .error e
    | .ok v' => .ok ⟨some v', r.customResolver, r.messageCustomResolver, decRefs r.aliases, r.autoBind.map (fun a => (decRef a.1, decRef a.2)),
        r.oneof.map (OneofRule.conv decTy some), none⟩

/-- `resolver.Field` (`resolver/types.go` lines 345-352). -/
structure RField where
  name : Name
  desc : Option Name
  ty : Option Ty
  oneof : Option Name
  message : Option Name
  rule : Option RFieldRule
deriving DecidableEq, Repr

/-- `plugin.Field`. -/
structure PField where
  name : Name
  ty : Option PTy
  oneof : Name
  message : Name
  rule : Option PFieldRule
deriving DecidableEq, Repr

/-- `encoder.toField`, `grpc/federation/generator/encode.go` lines 515-531. -/
def encField (f : RField) : PField := ⟨f.name, f.ty.map encTy, encRef f.oneof, encRef f.message, f.rule.map encFieldRule⟩

/-- `decoder.toField`, `grpc/federation/generator/decode.go` lines 494-528. -/
def decField (f : PField) : Except Unit RField :=
  match f.rule with
  | none => .ok ⟨f.name, none, f.ty.map decTy, decRef f.oneof, decRef f.message, none⟩
  | some r =>
    match decFieldRule r with
    | .error e => .error e
    | .ok r' => .ok ⟨f.name, none, f.ty.map decTy, decRef f.oneof, decRef f.message, some r'⟩

/-- `resolver.Oneof` (`resolver/types.go` lines 339-343). `I` is the type of references. -/
structure OneofO (I : Type) where
  name : Name
  message : I
  fields : List Name
deriving DecidableEq, Repr

/-- `encoder.toOneof`, `grpc/federation/generator/encode.go` lines 584-600. -/
def encOneof (o : OneofO (Option Name)) : OneofO Name := ⟨o.name, encRef o.message, o.fields⟩

/-- `decoder.toOneof`, `grpc/federation/generator/decode.go` lines 692-717. -/
def decOneof (o : OneofO Name) : OneofO (Option Name) := ⟨o.name, decRef o.message, decRefs o.fields⟩

/-- `resolver.Enum` (`resolver/types.go` lines 139-145); a rule is its list of aliases (lines 147-149). `I` is the type of references. -/
structure EnumO (I : Type) where
  file : I
  name : Name
  values : List Name
  message : I
  rule : Option (List Name)
deriving DecidableEq, Repr

/-- `encoder.toEnum` and `toEnumRule`, `grpc/federation/generator/encode.go` lines 382-413. -/
def encEnum (e : EnumO (Option Name)) : EnumO Name := ⟨encRef e.file, e.name, e.values, encRef e.message, e.rule⟩

/-- `decoder.toEnum` and `toEnumRule`, `grpc/federation/generator/decode.go` lines 1583-1631. -/
def decEnum (e : EnumO Name) : EnumO (Option Name) := ⟨decRef e.file, e.name, decRefs e.values, decRef e.message, e.rule.map decRefs⟩

/-- `EnumValueRule` on both sides (`resolver/types.go` lines 157-161); an alias is an enum and values of it (lines 163-166), an attribute
a name and a value (lines 168-171). -/
structure ValueRule (I : Type) where
  default : Bool
  aliases : List (I × List Name)
  attrs : List (Name × Name)
deriving DecidableEq, Repr

/-- `EnumValue` on both sides (`resolver/types.go` lines 151-155). -/
structure EnumV (I : Type) where
  value : Name
  enum : I
  rule : Option (ValueRule I)
deriving DecidableEq, Repr

/-- `encoder.toEnumValue`, `toEnumValueRule`, `toEnumValueAlias`, `toEnumValueAttribute`, `grpc/federation/generator/encode.go` lines 451-501. -/
def encEnumValue (v : EnumV (Option Name)) : EnumV Name :=
  ⟨v.value, encRef v.enum, v.rule.map (fun r => ⟨r.default, r.aliases.map (fun a => (encRef a.1, a.2)), r.attrs⟩)⟩

/-- `decoder.toEnumValue`, `toEnumValueRule`, `toEnumValueAlias`, `toEnumValueAttribute`, `grpc/federation/generator/decode.go` lines 1675-1744. -/
def decEnumValue (v : EnumV Name) : EnumV (Option Name) :=
  ⟨v.value, decRef v.enum, v.rule.map (fun r => ⟨r.default, r.aliases.map (fun a => (decRef a.1, decRefs a.2)), r.attrs⟩)⟩

/-- `CELFunction` on both sides (`resolver/types.go` lines 26-32). -/
structure Fn (T I : Type) where
  name : Name
  id : Name
  args : List T
  ret : Option T
  receiver : I
deriving DecidableEq, Repr

/-- `CELPlugin` on both sides (`resolver/types.go` lines 20-24). -/
structure Plug (T I : Type) where
  name : Name
  desc : Name
  functions : List (Fn T I)
deriving DecidableEq, Repr

/-- `encoder.toCELPlugin`, `toCELFunction`, `toTypes`, `grpc/federation/generator/encode.go` lines 662-711. -/
def encPlugin (p : Plug Ty (Option Name)) : Plug PTy Name :=
  ⟨p.name, p.desc, p.functions.map (fun f => ⟨f.name, f.id, f.args.map encTy, f.ret.map encTy, encRef f.receiver⟩)⟩

/-- `decoder.toCELPlugin`, `toCELFunctions`, `toCELFunction`, `toTypes`, `grpc/federation/generator/decode.go` lines 1764-1842. -/
def decPlugin (p : Plug PTy Name) : Plug Ty (Option Name) :=
  ⟨p.name, p.desc, p.functions.map (fun f => ⟨f.name, f.id, f.args.map decTy, f.ret.map decTy, decRef f.receiver⟩)⟩

end Verif.Codegen
