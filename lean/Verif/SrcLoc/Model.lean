/-!
# From a location to its place in the source

Models `source/file.go` lines 969-2020: how the node of a location, for example that of a problem, is found in the
syntax tree of its file.

Nodes of the tree are numbered; a place is the number of its node.  A location is a tree of structures in the code,
of which each builder step of `source/location_builder.go` sets exactly one part; here each level is the choice of
that part, so of a `switch` over parts and field names exactly one case can apply.  The file of a location is the file
that is searched (`validator/validator.go` lines 139-146), so lines 971-976 of `source/file.go` are left out.
-/

namespace Verif.SrcLoc

abbrev Id := Nat
abbrev Text := List Char

/-- Values of options.  `other` are numbers and strings written as several literals. -/
inductive Val where
  | str (id : Id) (s : Text)
  | ident (id : Id)
  | other (id : Id)
  | arr (id : Id) (elems : List Val)
  | msg (id : Id) (fields : List (String × Val))

def Val.id : Val → Id
  | .str i _ => i
  | .ident i => i
  | .other i => i
  | .arr i _ => i
  | .msg i _ => i

/-- A message literal. -/
structure Lit where
  id : Id
  fields : List (String × Val)

def Lit.val (m : Lit) : Val := .msg m.id m.fields

/-- A value that is a message literal. -/
def Val.lit? : Val → Option Lit
  | .msg i fs => some ⟨i, fs⟩
  | _ => none

/-! ## Parts of options -/

inductive ArgPart where
  | none | name | «by» | inline
inductive MsgExprPart where
  | none | name | args (idx : Nat) (p : ArgPart)
inductive EnumExprPart where
  | none | name | «by»
inductive MapPart where
  | none | iteratorName | iteratorSource | «by» | message (p : MsgExprPart) | enum (p : EnumExprPart)
inductive RetryPart where
  | none | «if» | interval | initialInterval | maxInterval
inductive RequestPart where
  | none | field | «by» | «if»

mutual
/-- A part of a definition. -/
inductive DefPart where
  | none | name | «if» | «by»
  | map (p : MapPart)
  | call (p : CallPart)
  | message (p : MsgExprPart)
  | enum (p : EnumExprPart)
  | validation (p : ErrPart)
/-- A part of a call. -/
inductive CallPart where
  | none | method | timeout
  | retry (p : RetryPart)
  | request (idx : Nat) (p : RequestPart)
  | error (idx : Nat) (p : ErrPart)
/-- A part of an error. -/
inductive ErrPart where
  | none | «if» | message | ignore | ignoreAndResponse
  | «def» (idx : Nat) (p : DefPart)
  | detail (idx : Nat) (p : DetailPart)
/-- A part of a detail of an error. -/
inductive DetailPart where
  | none | «if» | «by»
  | «def» (idx : Nat) (p : DefPart)
  | message (idx : Nat) (p : DefPart)
  | precondition (idx vio : Nat) (field : String)
  | badRequest (idx vio : Nat) (field : String)
  | localized (idx : Nat) (field : String)
end

inductive MsgOptPart where
  | none | alias | «def» (idx : Nat) (p : DefPart)
inductive OneofPart where
  | none | «if» | default | «by» | «def» (idx : Nat) (p : DefPart)
inductive FieldOptPart where
  | none | «by» | alias | oneof (p : OneofPart)
inductive AttrPart where
  | none | name | value
inductive ValueOptPart where
  | none | alias | default | attr (idx : Nat) (p : AttrPart)
inductive EnvVarPart where
  | none | name | type
inductive EnvPart where
  | none | message | var (idx : Nat) (p : EnvVarPart)
inductive SvcValidationPart where
  | none | «if» | message
inductive SvcVarPart where
  | none | name | «if» | «by»
  | map (p : MapPart)
  | message (p : MsgExprPart)
  | enum (p : EnumExprPart)
  | validation (p : SvcValidationPart)
inductive SvcOptPart where
  | none | env (p : EnvPart) | var (idx : Nat) (p : SvcVarPart)
inductive MethodOptPart where
  | none | timeout | response

/-! ## Reading values -/

/-- A value that has to be a string literal, for example `source/file.go` lines 1228-1232. -/
def strId : Val → Option Id
  | .str i _ => some i
  | _ => none

/-- A value that has to be an identifier, `source/file.go` lines 1530-1534. -/
def identId : Val → Option Id
  | .ident i => some i
  | _ => none

/-- A value that has to be a message literal, for example `source/file.go` lines 1246-1250. -/
def onMsg (k : Lit → Option Id) (v : Val) : Option Id :=
  match v.lit? with
  | some m => k m
  | none => none

/-- `getMessageListFromNode`, `source/file.go` lines 497-513. -/
def messages : Val → List Lit
  | .msg i fs => [⟨i, fs⟩]
  | .arr _ vs => vs.filterMap Val.lit?
  | _ => []

/-- A loop over the fields of a literal of which only the case for `name` applies: its first field of that name, or
the literal itself if there is none, for example `source/file.go` lines 1224-1232 and 1277. -/
def onField (m : Lit) (name : String) (k : Val → Option Id) : Option Id :=
  match m.fields.find? fun e => e.1 = name with
  | some e => k e.2
  | none => some m.id

/-- All messages of the fields of a name, for example `source/file.go` lines 1202-1211. -/
def collect (m : Lit) (name : String) : List Lit := m.fields.flatMap fun e => if e.1 = name then messages e.2 else []

/-- A loop that collects the messages of a repeated field and goes on with one of them; the literal itself if there
is none at all, for example `source/file.go` lines 1212-1216. -/
def onItems (m : Lit) (name : String) (k : List Lit → Option Id) : Option Id :=
  match collect m name with
  | [] => some m.id
  | x :: xs => k (x :: xs)

/-- The literal of an index, for example `source/file.go` lines 1220-1223. -/
def onIdx (list : List Lit) (idx : Nat) (k : Lit → Option Id) : Option Id :=
  match list[idx]? with
  | some m => k m
  | none => none

/-! ## Parts of definitions -/

/-- `nodeInfoByArgument`, `source/file.go` lines 1704-1727: names are not searched. -/
def argument (list : List Lit) (idx : Nat) (p : ArgPart) : Option Id :=
  onIdx list idx fun m =>
    match p with
    | .by => onField m "by" strId
    | .inline => onField m "inline" strId
    | .name => some m.id
    | .none => some m.id

/-- `nodeInfoByMessageExpr`, `source/file.go` lines 1448-1467. -/
def messageExpr (m : Lit) : MsgExprPart → Option Id
  | .name => onField m "name" strId
  | .args idx p => onItems m "args" fun l => argument l idx p
  | .none => some m.id

/-- `nodeInfoByEnumExpr`, `source/file.go` lines 1469-1488. -/
def enumExpr (m : Lit) : EnumExprPart → Option Id
  | .name => onField m "name" strId
  | .by => onField m "by" strId
  | .none => some m.id

/-- The loops over the fields `iterator` of a map and over the fields in them, `source/file.go` lines 1281-1297: the
first field of the name in any of them. -/
def iterator (m : Lit) (name : String) : List (String × Val) → Option Id
  | [] => some m.id
  | e :: es =>
    if e.1 = "iterator" then
      match e.2.lit? with
      | none => none
      | some it =>
        match it.fields.find? fun x => x.1 = name with
        | some x => some x.2.id
        | none => iterator m name es
    else iterator m name es

/-- `nodeInfoByMapExpr`, `source/file.go` lines 1280-1319. -/
def mapExpr (m : Lit) : MapPart → Option Id
  | .iteratorName => iterator m "name" m.fields
  | .iteratorSource => iterator m "src" m.fields
  | .by => onField m "by" strId
  | .message p => onField m "message" (onMsg fun x => messageExpr x p)
  | .enum p => onField m "enum" (onMsg fun x => enumExpr x p)
  | .none => some m.id

/-- `nodeInfoByRetryConstant` and `nodeInfoByRetryExponential`, `source/file.go` lines 1416-1446, for the parts the
resolver uses. -/
def retryField (name : String) (m : Lit) : Option Id := onField m name fun v => some v.id

/-- `nodeInfoByRetry`, `source/file.go` lines 1389-1414. -/
def retry (m : Lit) : RetryPart → Option Id
  | .if => onField m "if" strId
  | .interval => onField m "constant" (onMsg (retryField "interval"))
  | .initialInterval => onField m "exponential" (onMsg (retryField "initial_interval"))
  | .maxInterval => onField m "exponential" (onMsg (retryField "max_interval"))
  | .none => some m.id

/-- `nodeInfoByMethodRequest`, `source/file.go` lines 1358-1387. -/
def request (list : List Lit) (idx : Nat) (p : RequestPart) : Option Id :=
  onIdx list idx fun m =>
    match p with
    | .field => onField m "field" strId
    | .by => onField m "by" strId
    | .if => onField m "if" strId
    | .none => some m.id

/-- `nodeInfoByPreconditionFailure` with its violations and `nodeInfoByBadRequest` with its violations,
`source/file.go` lines 1614-1666 and 1686-1702; `name` is the field of the violations. -/
def violation (name : String) (list : List Lit) (idx vio : Nat) (field : String) : Option Id :=
  onIdx list idx fun m => onItems m name fun l => onIdx l vio fun x => onField x field strId

/-- `nodeInfoByLocalizedMessage`, `source/file.go` lines 1668-1684. -/
def localized (list : List Lit) (idx : Nat) (field : String) : Option Id :=
  onIdx list idx fun m => onField m field strId

/-- `nodeInfoByValidationExpr`, `source/file.go` lines 1490-1509, for the error, in which `k` searches; the resolver
asks for no other part. -/
def validation (m : Lit) (k : List Lit → Option Id) : Option Id := onField m "error" (onMsg fun x => k [x])

mutual
/-- `nodeInfoByDef`, `source/file.go` lines 1219-1278. -/
def defInfo (list : List Lit) (idx : Nat) : DefPart → Option Id
  | .name => onIdx list idx fun m => onField m "name" strId
  | .if => onIdx list idx fun m => onField m "if" strId
  | .by => onIdx list idx fun m => onField m "by" strId
  | .map p => onIdx list idx fun m => onField m "map" (onMsg fun x => mapExpr x p)
  | .call p => onIdx list idx fun m => onField m "call" (onMsg fun x => callExpr x p)
  | .message p => onIdx list idx fun m => onField m "message" (onMsg fun x => messageExpr x p)
  | .enum p => onIdx list idx fun m => onField m "enum" (onMsg fun x => enumExpr x p)
  | .validation p => onIdx list idx fun m => onField m "validation" (onMsg fun x => validation x fun l => grpcError l 0 p)
  | .none => onIdx list idx fun m => some m.id
/-- `nodeInfoByCallExpr`, `source/file.go` lines 1321-1356. -/
def callExpr (m : Lit) : CallPart → Option Id
  | .method => onField m "method" strId
  | .timeout => onField m "timeout" fun v => some v.id
  | .retry p => onField m "retry" (onMsg fun x => retry x p)
  | .request idx p => onItems m "request" fun l => request l idx p
  | .error idx p => onItems m "error" fun l => grpcError l idx p
  | .none => some m.id
/-- `nodeInfoByGRPCError`, `source/file.go` lines 1511-1554: the message is not searched. -/
def grpcError (list : List Lit) (idx : Nat) : ErrPart → Option Id
  | .if => onIdx list idx fun m => onField m "if" strId
  | .ignore => onIdx list idx fun m => onField m "ignore" identId
  | .ignoreAndResponse => onIdx list idx fun m => onField m "ignore_and_response" strId
  | .def i p => onIdx list idx fun m => onItems m "def" fun l => defInfo l i p
  | .detail i p => onIdx list idx fun m => onItems m "details" fun l => detail l i p
  | .message => onIdx list idx fun m => some m.id
  | .none => onIdx list idx fun m => some m.id
/-- `nodeInfoByGRPCErrorDetail`, `source/file.go` lines 1556-1612. -/
def detail (list : List Lit) (idx : Nat) : DetailPart → Option Id
  | .if => onIdx list idx fun m => onField m "if" strId
  | .by => onIdx list idx fun m => onField m "by" strId
  | .def i p => onIdx list idx fun m => onItems m "def" fun l => defInfo l i p
  | .message i p => onIdx list idx fun m => onItems m "message" fun l => defInfo l i p
  | .precondition i v f => onIdx list idx fun m => onItems m "precondition_failure" fun l => violation "violations" l i v f
  | .badRequest i v f => onIdx list idx fun m => onItems m "bad_request" fun l => violation "field_violations" l i v f
  | .localized i f => onIdx list idx fun m => onItems m "localized_message" fun l => localized l i f
  | .none => onIdx list idx fun m => some m.id
end

/-! ## Declarations -/

/-- An option statement; the name is that of `optionName`, `source/file.go` lines 929-935: its parts joined by dots. -/
structure Opt where
  id : Id
  name : Text
  val : Val

/-- A field, also of a map type. -/
structure Field where
  id : Id
  name : String
  typeId : Id
  opts : List Opt

structure EnumVal where
  id : Id
  name : String
  opts : List Opt

inductive EnumDecl where
  | opt (o : Opt)
  | value (v : EnumVal)

structure Enum where
  id : Id
  name : String
  decls : List EnumDecl

inductive OneofDecl where
  | opt (o : Opt)
  | field (f : Field)

/-- What a message declares; `other` are reserved names, extensions and the like. -/
inductive Decl where
  | opt (o : Opt)
  | field (f : Field)
  | oneof (name : String) (decls : List OneofDecl)
  | msg (id : Id) (name : String) (body : List Decl)
  | enum (e : Enum)
  | other

structure Rpc where
  id : Id
  name : String
  opts : List Opt

inductive SvcDecl where
  | opt (o : Opt)
  | rpc (r : Rpc)

structure Service where
  id : Id
  name : String
  decls : List SvcDecl

/-- What a file declares. -/
inductive Top where
  | «import» (id : Id) (name : Text)
  | opt (o : Opt)
  | msg (id : Id) (name : String) (body : List Decl)
  | enum (e : Enum)
  | svc (s : Service)
  | other

/-! ## Locations -/

structure FieldLoc where
  name : String
  type : Bool := false
  option : Option FieldOptPart := none

structure ValueLoc where
  name : String
  option : Option ValueOptPart := none

structure EnumLoc where
  name : String
  alias : Option Bool := none
  value : Option ValueLoc := none

structure MethodLoc where
  name : String
  option : Option MethodOptPart := none

structure SvcLoc where
  name : String
  option : Option SvcOptPart := none
  method : Option MethodLoc := none

/-- What a location says about the innermost of its messages. -/
structure MsgParts where
  option : Option MsgOptPart := none
  field : Option FieldLoc := none
  enum : Option EnumLoc := none
  oneof : Option String := none

/-- A message, the path of messages in it, and what is said about the last one.  The outer ones have no other parts,
`source/location_builder.go` lines 762-772 and `source/file.go` lines 161-186. -/
structure MsgLoc where
  name : String
  nested : List String
  parts : MsgParts

/-- `Location`, `source/location.go`. -/
structure Loc where
  importName : Text := []
  goPackage : Bool := false
  message : Option MsgLoc := none
  enum : Option EnumLoc := none
  service : Option SvcLoc := none
  «export» : Option String := none

/-! ## Options -/

/-- `matchOption`, `source/file.go` lines 2018-2020. -/
def matchOption (name : Text) (opt : String) : Bool :=
  opt.toList.isPrefixOf (match name with | '.' :: r => r | r => r)

def Opt.named (o : Opt) (opt : String) : Bool := matchOption o.name opt

/-- `strings.HasSuffix` of the name of an option. -/
def Opt.ends (o : Opt) (s : String) : Bool := s.toList.isSuffixOf o.name

/-- `nodeInfoByMessageOption`, `source/file.go` lines 1195-1217. -/
def messageOption (o : Opt) (p : MsgOptPart) : Option Id :=
  match o.val, p with
  | .str i _, .alias => if o.ends "alias" then some i else some o.id
  | .msg _ fs, .alias =>
    match fs.find? fun e => e.1 = "alias" with
    | some e => some e.2.id
    | none => some o.id
  | .msg i fs, .def idx d =>
    match collect ⟨i, fs⟩ "def" with
    | [] => some o.id
    | x :: xs => defInfo (x :: xs) idx d
  | _, _ => some o.id

/-- `nodeInfoByFieldOneof`, `source/file.go` lines 1776-1799: the first field `def` only. -/
def fieldOneof (m : Lit) : OneofPart → Option Id
  | .if => onField m "if" strId
  | .default => onField m "default" fun v => some v.id
  | .def idx d => onField m "def" fun v => defInfo (messages v) idx d
  | .by => onField m "by" strId
  | .none => some m.id

/-- `nodeInfoByFieldOption`, `source/file.go` lines 1745-1774: aliases are not searched. -/
def fieldOption (o : Opt) (p : FieldOptPart) : Option Id :=
  match o.val, p with
  | .str i _, .by => if o.ends "by" then some i else some o.id
  | .msg _ fs, .by =>
    match fs.find? fun e => e.1 = "by" with
    | some e => strId e.2
    | none => some o.id
  | .msg i fs, .oneof q =>
    if o.ends "oneof" then fieldOneof ⟨i, fs⟩ q
    else
      match fs.find? fun e => e.1 = "oneof" with
      | some e => onMsg (fun x => fieldOneof x q) e.2
      | none => some o.id
  | _, _ => some o.id

/-- `nodeInfoByField`, `source/file.go` lines 1729-1743. -/
def fieldInfo (f : Field) (l : FieldLoc) : Option Id :=
  match l.option, f.opts.find? fun o => o.named "grpc.federation.field" with
  | some p, some o => fieldOption o p
  | _, _ => if l.type then some f.typeId else some f.id

/-- `nodeInfoByEnumOption`, `source/file.go` lines 1110-1126. -/
def enumOption (o : Opt) (alias : Bool) : Option Id :=
  match o.val with
  | .str i _ => if alias && o.ends "alias" then some i else some o.id
  | .msg _ fs =>
    match fs.find? fun e => alias && e.1 = "alias" with
    | some e => some e.2.id
    | none => some o.id
  | _ => some o.id

/-- `nodeInfoByEnumValueAttribute`, `source/file.go` lines 1170-1193. -/
def attrInfo (list : List Lit) (idx : Nat) (p : AttrPart) : Option Id :=
  onIdx list idx fun m =>
    match p with
    | .name => onField m "name" strId
    | .value => onField m "value" strId
    | .none => some m.id

/-- `nodeInfoByEnumValueOption`, `source/file.go` lines 1141-1168. -/
def valueOption (o : Opt) (p : ValueOptPart) : Option Id :=
  match o.val, p with
  | .str i _, .default => if o.ends "default" then some i else some o.id
  | .str i _, .alias => if o.ends "alias" then some i else some o.id
  | .msg _ fs, .default =>
    match fs.find? fun e => e.1 = "default" with
    | some e => some e.2.id
    | none => some o.id
  | .msg _ fs, .alias =>
    match fs.find? fun e => e.1 = "alias" with
    | some e => some e.2.id
    | none => some o.id
  | .msg i fs, .attr idx a =>
    match collect ⟨i, fs⟩ "attr" with
    | [] => some o.id
    | x :: xs => attrInfo (x :: xs) idx a
  | _, _ => some o.id

/-- `nodeInfoByEnumValue`, `source/file.go` lines 1128-1139. -/
def valueInfo (v : EnumVal) (l : ValueLoc) : Option Id :=
  match l.option, v.opts.find? fun o => o.named "grpc.federation.enum_value" with
  | some p, some o => valueOption o p
  | _, _ => some v.id

/-- The body of the loop of `nodeInfoByEnum`, `source/file.go` lines 1090-1105: `none` goes on. -/
def enumStep (l : EnumLoc) : EnumDecl → Option (Option Id)
  | .opt o =>
    match l.alias with
    | some a => if o.named "grpc.federation.enum" then some (enumOption o a) else none
    | none => none
  | .value v =>
    match l.value with
    | some vl => if v.name = vl.name then some (valueInfo v vl) else none
    | none => none

/-- `nodeInfoByEnum`, `source/file.go` lines 1088-1108. -/
def enumInfo (e : Enum) (l : EnumLoc) : Option Id := (e.decls.findSome? (enumStep l)).getD (some e.id)

/-- The body of the loop of `nodeInfoByOneof`, `source/file.go` lines 1067-1084. -/
def oneofStep (l : MsgParts) : OneofDecl → Option (Option Id)
  | .opt o =>
    match l.option with
    | some p => if o.named "grpc.federation.message" then some (messageOption o p) else none
    | none => none
  | .field f =>
    match l.field with
    | some fl => if f.name = fl.name then some (fieldInfo f fl) else none
    | none => none

/-- `nodeInfoByOneof`, `source/file.go` lines 1066-1086. -/
def oneofInfo (decls : List OneofDecl) (l : MsgParts) : Option Id := (decls.findSome? (oneofStep l)).getD none

/-- The body of the loop of `nodeInfoByMessage`, `source/file.go` lines 1022-1062; `nested` is what is found in a
message of the body, if the location goes on with one. -/
def msgStep (l : MsgParts) (nested : Option (Id → String → List Decl → Option Id)) : Decl → Option (Option Id)
  | .opt o =>
    match l.option with
    | some p => if o.named "grpc.federation.message" then some (messageOption o p) else none
    | none => none
  | .field f =>
    match l.field with
    | some fl => if f.name = fl.name then some (fieldInfo f fl) else none
    | none => none
  | .oneof _ decls => (oneofInfo decls l).map some
  | .msg i n body =>
    match nested with
    | some k => (k i n body).map some
    | none => none
  | .enum e =>
    match l.enum with
    | some el => if e.name = el.name then some (enumInfo e el) else none
    | none => none
  | .other => none

/-- `nodeInfoByMessage`, `source/file.go` lines 1018-1064. -/
def msgInfo (l : MsgParts) : List String → String → Id → String → List Decl → Option Id
  | [], n, i, name, body =>
    if name = n then (body.findSome? (msgStep l none)).getD (some i) else none
  | m :: ms, n, i, name, body =>
    if name = n then (body.findSome? (msgStep {} (some (msgInfo l ms m)))).getD (some i) else none

/-! ## Services -/

/-- `nodeInfoByEnvVar`, `source/file.go` lines 1869-1886: types are not searched. -/
def envVar (list : List Lit) (idx : Nat) (p : EnvVarPart) : Option Id :=
  onIdx list idx fun m =>
    match p with
    | .name => onField m "name" strId
    | .type => some m.id
    | .none => some m.id

/-- `nodeInfoByEnv`, `source/file.go` lines 1848-1867. -/
def env (m : Lit) : EnvPart → Option Id
  | .message => onField m "message" strId
  | .var idx p => onItems m "var" fun l => envVar l idx p
  | .none => some m.id

/-- `nodeInfoByServiceVariableValidationExpr`, `source/file.go` lines 1943-1962. -/
def svcValidation (m : Lit) : SvcValidationPart → Option Id
  | .if => onField m "if" strId
  | .message => onField m "message" strId
  | .none => some m.id

/-- `nodeInfoByServiceVariable`, `source/file.go` lines 1888-1941. -/
def svcVar (list : List Lit) (idx : Nat) (p : SvcVarPart) : Option Id :=
  onIdx list idx fun m =>
    match p with
    | .name => onField m "name" strId
    | .if => onField m "if" strId
    | .by => onField m "by" strId
    | .map q => onField m "map" (onMsg fun x => mapExpr x q)
    | .message q => onField m "message" (onMsg fun x => messageExpr x q)
    | .enum q => onField m "enum" (onMsg fun x => enumExpr x q)
    | .validation q => onField m "validation" (onMsg fun x => svcValidation x q)
    | .none => some m.id

/-- `nodeInfoByServiceOption`, `source/file.go` lines 1824-1846. -/
def svcOption (o : Opt) (p : SvcOptPart) : Option Id :=
  match o.val, p with
  | .msg _ fs, .env q =>
    match fs.find? fun e => e.1 = "env" with
    | some e => onMsg (fun x => env x q) e.2
    | none => some o.id
  | .msg i fs, .var idx q =>
    match collect ⟨i, fs⟩ "var" with
    | [] => some o.id
    | x :: xs => svcVar (x :: xs) idx q
  | _, _ => some o.id

/-- `nodeInfoByMethodOption`, `source/file.go` lines 1979-2008. -/
def methodOption (o : Opt) (p : MethodOptPart) : Option Id :=
  match o.val, p with
  | .str i _, .timeout => if o.ends "timeout" then some i else some o.id
  | .str i _, .response => if o.ends "response" then some i else some o.id
  | .msg _ fs, .timeout =>
    match fs.find? fun e => e.1 = "timeout" with
    | some e => strId e.2
    | none => some o.id
  | .msg _ fs, .response =>
    match fs.find? fun e => e.1 = "response" with
    | some e => strId e.2
    | none => some o.id
  | _, _ => some o.id

/-- `nodeInfoByMethod`, `source/file.go` lines 1964-1977: nothing, if there is no such option. -/
def methodInfo (r : Rpc) (l : MethodLoc) : Option Id :=
  match l.option, r.opts.find? fun o => o.named "grpc.federation.method" with
  | some p, some o => methodOption o p
  | _, _ => none

/-- The body of the loop of `nodeInfoByService`, `source/file.go` lines 1802-1820. -/
def svcStep (l : SvcLoc) : SvcDecl → Option (Option Id)
  | .opt o =>
    match l.option with
    | some p => if o.named "grpc.federation.service" then some (svcOption o p) else none
    | none => none
  | .rpc r =>
    match l.method with
    | some ml => if r.name = ml.name then some (methodInfo r ml) else none
    | none => none

/-- `nodeInfoByService`, `source/file.go` lines 1801-1822. -/
def svcInfo (s : Service) (l : SvcLoc) : Option Id := (s.decls.findSome? (svcStep l)).getD (some s.id)

/-! ## Files -/

/-- `optionValuesByImportRule`, `source/file.go` lines 937-967. -/
def importValues (o : Opt) : List Val :=
  if o.named "grpc.federation.file" then
    if o.ends ".import" then [o.val]
    else
      match o.val with
      | .msg _ fs =>
        match fs.find? fun e => e.1 = "import" with
        | some (_, .arr _ vs) => vs
        | _ => []
      | _ => []
  else []

/-- The value of a string literal. -/
def Val.text? : Val → Option Text
  | .str _ s => some s
  | _ => none

/-- `ImportsByImportRule`, `source/file.go` lines 97-112. -/
def optionImports (f : List Top) : List Text :=
  f.flatMap fun
    | .opt o => (importValues o).filterMap Val.text?
    | _ => []

/-- The body of the loop of `NodeInfoByLocation`, `source/file.go` lines 977-1014. -/
def topStep (l : Loc) : Top → Option (Option Id)
  | .import i n => if l.importName = n then some (some i) else none
  | .opt o =>
    if o.named "go_package" && l.goPackage then some (some o.val.id)
    else ((importValues o).find? fun v => v.text? = some l.importName).map fun v => some v.id
  | .msg i n body =>
    match l.message with
    | some ml => if n = ml.name then some (msgInfo ml.parts ml.nested ml.name i n body) else none
    | none => none
  | .enum e =>
    match l.enum with
    | some el => if e.name = el.name then some (enumInfo e el) else none
    | none => none
  | .svc s =>
    match l.service with
    | some sl => if s.name = sl.name then some (svcInfo s sl) else none
    | none => none
  | .other => none

/-- `NodeInfoByLocation`, `source/file.go` lines 969-1016. -/
def nodeInfo (f : List Top) (l : Loc) : Option Id := (f.findSome? (topStep l)).getD none

end Verif.SrcLoc
