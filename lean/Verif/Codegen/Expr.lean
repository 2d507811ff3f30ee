import Verif.Codegen.Graph

/-!
# The request of code generation plugins: data

Models the encoding of types, expressions and definitions (`grpc/federation/generator/encode.go` lines 358-368, 713-779, 839-859, 910-1250)
and their decoding (`decode.go` lines 561-608, 628-649, 832-864, 934-1489, 1844-1921). Structures are generic in the representation of types, since
many have the same fields on both sides. References are keys (see `Verif.Codegen.Graph`); a missing object is `none`.

Simplified: protobuf serialisation keeps messages as they are (trusted base), but does not tell an empty list from a
missing one, so neither does the model. Lists have no nil elements (the decoder would drop them). Decoded references are
the keys; that they are found is the subject of `Verif.Codegen.GraphProps`. Floats of retry policies are only copied. `Duration.AsDuration` does not overflow for what `durationpb.New` gives.
-/

namespace Verif.Codegen

/-- `types.Kind` (`types/types.go` lines 5-27). -/
inductive TKind where
  | unknown | double | float | int64 | uint64 | int32 | fixed64 | fixed32 | bool | string | group | message | bytes | uint32 | enum
  | sfixed32 | sfixed64 | sint32 | sint64
deriving DecidableEq, Repr

/-- `plugin.TypeKind`. -/
inductive PKind where
  | UNKNOWN | DOUBLE | FLOAT | INT64 | UINT64 | INT32 | FIXED64 | FIXED32 | BOOL | STRING | GROUP | MESSAGE | BYTES | UINT32 | ENUM
  | SFIXED32 | SFIXED64 | SINT32 | SINT64
deriving DecidableEq, Repr

/-- `encoder.toTypeKind`, `grpc/federation/generator/encode.go` lines 739-779. -/
def encKind : TKind → PKind
  | .double => .DOUBLE | .float => .FLOAT | .int64 => .INT64 | .uint64 => .UINT64 | .int32 => .INT32 | .fixed64 => .FIXED64
  | .fixed32 => .FIXED32 | .bool => .BOOL | .string => .STRING | .group => .GROUP | .message => .MESSAGE | .bytes => .BYTES
  | .uint32 => .UINT32 | .enum => .ENUM | .sfixed32 => .SFIXED32 | .sfixed64 => .SFIXED64 | .sint32 => .SINT32 | .sint64 => .SINT64
  | .unknown => .UNKNOWN

/-- `decoder.toTypeKind`, `grpc/federation/generator/decode.go` lines 1870-1910. -/
def decKind : PKind → TKind
  | .DOUBLE => .double | .FLOAT => .float | .INT64 => .int64 | .UINT64 => .uint64 | .INT32 => .int32 | .FIXED64 => .fixed64
  | .FIXED32 => .fixed32 | .BOOL => .bool | .STRING => .string | .GROUP => .group | .MESSAGE => .message | .BYTES => .bytes
  | .UINT32 => .uint32 | .ENUM => .enum | .SFIXED32 => .sfixed32 | .SFIXED64 => .sfixed64 | .SINT32 => .sint32 | .SINT64 => .sint64
  | .UNKNOWN => .unknown

/-- `Kind.ToString` (`types/types.go` lines 53-93). -/
def kindText : TKind → Name
  | .double => "double".toList | .float => "float".toList | .int64 => "int64".toList | .uint64 => "uint64".toList | .int32 => "int32".toList
  | .fixed64 => "fixed64".toList | .fixed32 => "fixed32".toList | .bool => "bool".toList | .string => "string".toList | .group => "group".toList
  | .message => "message".toList | .bytes => "bytes".toList | .uint32 => "uint32".toList | .enum => "enum".toList | .sfixed32 => "sfixed32".toList
  | .sfixed64 => "sfixed64".toList | .sint32 => "sint32".toList | .sint64 => "sint64".toList | .unknown => "null".toList

/-- `ToKind` (`types/types.go` lines 95-131). -/
def kindOf (s : Name) : TKind :=
  if s = "double".toList then .double else if s = "float".toList then .float else if s = "int64".toList then .int64
  else if s = "uint64".toList then .uint64 else if s = "int32".toList then .int32 else if s = "fixed64".toList then .fixed64
  else if s = "fixed32".toList then .fixed32 else if s = "bool".toList then .bool else if s = "string".toList then .string
  else if s = "group".toList then .group else if s = "bytes".toList then .bytes else if s = "uint32".toList then .uint32
  else if s = "sfixed32".toList then .sfixed32 else if s = "sfixed64".toList then .sfixed64 else if s = "sint32".toList then .sint32
  else if s = "sint64".toList then .sint64 else .unknown

/-- `resolver.Type`: the fields that are encoded. -/
structure Ty where
  kind : TKind
  repeated : Bool
  isNull : Bool
  message : Option Name
  enum : Option Name
  oneofField : Option Name
deriving DecidableEq, Repr

/-- `plugin.Type.Ref`. -/
inductive TyRef where
  | message (id : Name)
  | enum (id : Name)
  | oneofField (id : Name)
deriving DecidableEq, Repr

/-- `plugin.Type`. -/
structure PTy where
  kind : PKind
  repeated : Bool
  isNull : Bool
  ref : Option TyRef
deriving DecidableEq, Repr

/-- `encoder.toType`, `grpc/federation/generator/encode.go` lines 713-737. -/
def encTy (t : Ty) : PTy where
  kind := encKind t.kind
  repeated := t.repeated
  isNull := t.isNull
  ref := match t.message, t.enum, t.oneofField with
    | some m, _, _ => some (.message m)
    | none, some e, _ => some (.enum e)
    | none, none, some f => some (.oneofField f)
    | none, none, none => none

/-- `decoder.toType`, `toOneofField`, `grpc/federation/generator/decode.go` lines 1844-1868, 1912-1921. -/
def decTy (t : PTy) : Ty where
  kind := decKind t.kind
  repeated := t.repeated
  isNull := t.isNull
  message := match t.ref with | some (.message m) => some m | _ => none
  enum := match t.ref with | some (.enum e) => some e | _ => none
  oneofField := match t.ref with | some (.oneofField f) => some f | _ => none

/-- `CELValue` on both sides. -/
structure CEL (T : Type) where
  expr : Name
  out : Option T
deriving DecidableEq, Repr

/-- `toCELValue`, `encode.go` lines 910-918 and `decode.go` 595-608. -/
def CEL.conv {T T' : Type} (f : T → T') (c : CEL T) : CEL T' := ⟨c.expr, c.out.map f⟩

/-- `Value` on both sides. -/
structure Value (T : Type) where
  inline : Bool
  cel : Option (CEL T)
deriving DecidableEq, Repr

/-- `encoder.toValue`, `grpc/federation/generator/encode.go` lines 1097-1105. -/
def encValue (v : Value Ty) : Value PTy := ⟨v.inline, v.cel.map (CEL.conv encTy)⟩

/-- `decoder.toValue`, `grpc/federation/generator/decode.go` lines 561-575. -/
def decValue (v : Value PTy) : Except Unit (Value Ty) :=
  match v.cel with
  | none => .error ()
  | some c => .ok ⟨v.inline, some (c.conv decTy)⟩

/-- `Argument` on both sides. -/
structure Arg (T : Type) where
  name : Name
  ty : Option T
  value : Option (Value T)
  ifv : Option (CEL T)
deriving DecidableEq, Repr

/-- `encoder.toArg`, `grpc/federation/generator/encode.go` lines 1088-1095. -/
def encArg (a : Arg Ty) : Arg PTy := ⟨a.name, a.ty.map encTy, a.value.map encValue, a.ifv.map (CEL.conv encTy)⟩

/-- `decoder.toArg`, `grpc/federation/generator/decode.go` lines 1107-1132. -/
def decArg (a : Arg PTy) : Except Unit (Arg Ty) :=
  match a.value with
  | none => .ok ⟨a.name, a.ty.map decTy, none, a.ifv.map (CEL.conv decTy)⟩
  | some v =>
    match decValue v with
    | .error e => .error e
    | .ok v' => .ok ⟨a.name, a.ty.map decTy, some v', a.ifv.map (CEL.conv decTy)⟩

/-- `decoder.toArgs`, `grpc/federation/generator/decode.go` lines 1089-1105. -/
def decArgs : List (Arg PTy) → Except Unit (List (Arg Ty))
  | [] => .ok []
  | a :: as =>
    match decArg a, decArgs as with
    | .ok x, .ok xs => .ok (x :: xs)
    | _, _ => .error ()

/-- `durationpb.New`: seconds and nanoseconds, truncated. -/
def encDuration (d : Int) : Int × Int := (d.tdiv 1000000000, d.tmod 1000000000)

/-- `AsDuration`. -/
def decDuration (d : Int × Int) : Int := d.1 * 1000000000 + d.2

/-- `RetryPolicyExponential` (`resolver/types.go` lines 490-497). -/
structure Exponential (T : Type) where
  initial : T
  factor : Nat
  multiplier : Nat
  maxInterval : T
  maxRetries : Nat
  maxElapsed : T
deriving DecidableEq, Repr

/-- `resolver.RetryPolicy` (`resolver/types.go` lines 469-473). -/
structure Retry where
  ifv : Option (CEL Ty)
  constant : Option (Int × Nat)
  exponential : Option (Exponential Int)
deriving DecidableEq, Repr

/-- `plugin.RetryPolicy.Policy`. -/
inductive Policy where
  | constant (interval : Int × Int) (maxRetries : Nat)
  | exponential (e : Exponential (Int × Int))
deriving DecidableEq, Repr

/-- `plugin.RetryPolicy`. -/
structure PRetry where
  ifv : Option (CEL PTy)
  policy : Option Policy
deriving DecidableEq, Repr

/-- `encoder.toRetryPolicy`, `toRetryConstant`, `toRetryExponential`, `grpc/federation/generator/encode.go` lines 1026-1068. -/
def encRetry (r : Retry) : PRetry where
  ifv := r.ifv.map (CEL.conv encTy)
  policy := match r.constant, r.exponential with
    | some c, _ => some (.constant (encDuration c.1) c.2)
    | none, some e => some (.exponential ⟨encDuration e.initial, e.factor, e.multiplier, encDuration e.maxInterval, e.maxRetries, encDuration e.maxElapsed⟩)
    | none, none => none

/-- `decoder.toRetryPolicy`, `grpc/federation/generator/decode.go` lines 1134-1169. -/
def decRetry (r : PRetry) : Except Unit Retry :=
  match r.policy with
  | some (.constant i n) => .ok ⟨r.ifv.map (CEL.conv decTy), some (decDuration i, n), none⟩
  | some (.exponential e) => .ok ⟨r.ifv.map (CEL.conv decTy), none,
      some ⟨decDuration e.initial, e.factor, e.multiplier, decDuration e.maxInterval, e.maxRetries, decDuration e.maxElapsed⟩⟩
  | none => .error ()

/-- `VariableDefinitionSet`: references to its definitions, groups and graph. -/
structure DefSet where
  defs : List Name
  groups : List Name
  graph : Option Name
deriving DecidableEq, Repr

/-- `encoder.toVariableDefinitionSet`, `grpc/federation/generator/encode.go` lines 358-368, with the accessors of `resolver/def.go` lines 7-26: a missing set is
an empty one. -/
def encDefSet : Option DefSet → DefSet
  | none => ⟨[], [], none⟩
  | some s => s

/-- `GRPCErrorDetail` on both sides (`resolver/types.go` lines 300-308). -/
structure Detail (T S : Type) where
  ifv : Option (CEL T)
  defSet : S
  by' : List (CEL T)
  messages : S
  preconditionFailures : List (List (Option (CEL T) × Option (CEL T) × Option (CEL T)))
  badRequests : List (List (Option (CEL T) × Option (CEL T)))
  localized : List (Name × Option (CEL T))
deriving DecidableEq, Repr

/-- The shape of both conversions, with `toPreconditionFailure`, `toBadRequest` and `toLocalizedMessage` (`encode.go` lines
1163-1250, `decode.go` lines 1315-1489). -/
def Detail.conv {T T' S S' : Type} (f : T → T') (g : S → S') (d : Detail T S) : Detail T' S' where
  ifv := d.ifv.map (CEL.conv f)
  defSet := g d.defSet
  by' := d.by'.map (CEL.conv f)
  messages := g d.messages
  preconditionFailures := d.preconditionFailures.map (·.map (fun v => (v.1.map (CEL.conv f), v.2.1.map (CEL.conv f), v.2.2.map (CEL.conv f))))
  badRequests := d.badRequests.map (·.map (fun v => (v.1.map (CEL.conv f), v.2.map (CEL.conv f))))
  localized := d.localized.map (fun v => (v.1, v.2.map (CEL.conv f)))

/-- `encoder.toGRPCErrorDetail`, `grpc/federation/generator/encode.go` lines 1148-1161. -/
def encDetail : Detail Ty (Option DefSet) → Detail PTy DefSet := Detail.conv encTy encDefSet

/-- `decoder.toGRPCErrorDetail`, `grpc/federation/generator/decode.go` lines 1274-1313. -/
def decDetail : Detail PTy DefSet → Detail Ty (Option DefSet) := Detail.conv decTy some

/-- `resolver.GRPCError` (`resolver/types.go` lines 287-296). -/
structure GErr where
  defSet : Option DefSet
  ifv : Option (CEL Ty)
  code : Option Nat
  message : Option (CEL Ty)
  details : List (Detail Ty (Option DefSet))
  ignore : Bool
  ignoreAndResponse : Option (CEL Ty)
  logLevel : Int
deriving DecidableEq, Repr

/-- `plugin.GRPCError`. -/
structure PErr where
  ifv : Option (CEL PTy)
  code : Option Nat
  message : Option (CEL PTy)
  details : List (Detail PTy DefSet)
  ignore : Bool
  ignoreAndResponse : Option (CEL PTy)
deriving DecidableEq, Repr

/-- `encoder.toGRPCError`, `grpc/federation/generator/encode.go` lines 1126-1138: no field for the variables and the log level. -/
def encErr (e : GErr) : PErr :=
  ⟨e.ifv.map (CEL.conv encTy), e.code, e.message.map (CEL.conv encTy), e.details.map encDetail, e.ignore, e.ignoreAndResponse.map (CEL.conv encTy)⟩

/-- `decoder.toGRPCError`, `grpc/federation/generator/decode.go` lines 1224-1254. -/
def decErr (e : PErr) : GErr :=
  ⟨none, e.ifv.map (CEL.conv decTy), e.code, e.message.map (CEL.conv decTy), e.details.map decDetail, e.ignore, e.ignoreAndResponse.map (CEL.conv decTy), 0⟩

/-- `Request` on both sides (`resolver/types.go` lines 499-502). -/
structure Req (T : Type) where
  args : List (Arg T)
  type : Option Name
deriving DecidableEq, Repr

/-- `encoder.toRequest`, `grpc/federation/generator/encode.go` lines 1016-1024. -/
def encReq (r : Req Ty) : Req PTy := ⟨r.args.map encArg, r.type⟩

/-- `decoder.toRequest`, `grpc/federation/generator/decode.go` lines 1070-1087, `none` stays `none`. -/
def decReq : Option (Req PTy) → Except Unit (Option (Req Ty))
  | none => .ok none
  | some r =>
    match decArgs r.args with
    | .error e => .error e
    | .ok a => .ok (some ⟨a, r.type⟩)

/-- `resolver.CallExpr` (`resolver/types.go` lines 247-253). -/
structure Call where
  method : Option Name
  request : Option (Req Ty)
  timeout : Option Int
  retry : Option Retry
  errors : List GErr
deriving DecidableEq, Repr

/-- `plugin.CallExpr`. -/
structure PCall where
  method : Option Name
  request : Option (Req PTy)
  timeout : Option (Int × Int)
  retry : Option PRetry
deriving DecidableEq, Repr

/-- `encoder.toCallExpr`, `grpc/federation/generator/encode.go` lines 1000-1014: no field for the errors. -/
def encCall (c : Call) : PCall := ⟨c.method, c.request.map encReq, c.timeout.map encDuration, c.retry.map encRetry⟩

/-- `decoder.toCallExpr`, `grpc/federation/generator/decode.go` lines 1042-1068. -/
def decCall (c : PCall) : Except Unit Call :=
  match decReq c.request with
  | .error e => .error e
  | .ok req =>
    match c.retry with
    | none => .ok ⟨c.method, req, c.timeout.map decDuration, none, []⟩
    | some r =>
      match decRetry r with
      | .error e => .error e
      | .ok r' => .ok ⟨c.method, req, c.timeout.map decDuration, some r', []⟩

/-- `MessageExpr` on both sides. -/
structure Msg (T : Type) where
  message : Option Name
  args : List (Arg T)
deriving DecidableEq, Repr

/-- `EnumExpr` on both sides. -/
structure EnumE (T : Type) where
  enum : Option Name
  by' : Option (CEL T)
deriving DecidableEq, Repr

/-- `encoder.toMessageExpr`, `grpc/federation/generator/encode.go` lines 1070-1078. -/
def encMsg (m : Msg Ty) : Msg PTy := ⟨m.message, m.args.map encArg⟩

/-- `toEnumExpr`, `encode.go` lines 1107-1115 and `decode.go` lines 1191-1208. -/
def EnumE.conv {T T' : Type} (f : T → T') (x : EnumE T) : EnumE T' := ⟨x.enum, x.by'.map (CEL.conv f)⟩

/-- `decoder.toMessageExpr`, `grpc/federation/generator/decode.go` lines 1171-1189. -/
def decMsg (m : Msg PTy) : Except Unit (Msg Ty) :=
  match decArgs m.args with
  | .error e => .error e
  | .ok a => .ok ⟨m.message, a⟩

/-- `resolver.MapIteratorExpr`: one field for each kind of expression. -/
structure IterExpr where
  ty : Option Ty
  «by» : Option (CEL Ty)
  message : Option (Msg Ty)
  enum : Option (EnumE Ty)
deriving DecidableEq, Repr

/-- `plugin.MapIteratorExpr.Expr`. -/
inductive PIter where
  | by (c : CEL PTy)
  | message (m : Msg PTy)
  | enum (e : EnumE PTy)
deriving DecidableEq, Repr

/-- `encoder.toMapIteratorExpr`, `grpc/federation/generator/encode.go` lines 976-998: the first expression that is set. -/
def encIter (e : IterExpr) : Option PTy × Option PIter :=
  (e.ty.map encTy,
    match e.by, e.message, e.enum with
    | some c, _, _ => some (.by (c.conv encTy))
    | none, some m, _ => some (.message (encMsg m))
    | none, none, some x => some (.enum (x.conv encTy))
    | none, none, none => none)

/-- `decoder.toMapIteratorExpr`, `grpc/federation/generator/decode.go` lines 1012-1040. -/
def decIter (e : Option PTy × Option PIter) : Except Unit IterExpr :=
  let ty := e.1.map decTy
  match e.2 with
  | none => .ok ⟨ty, none, none, none⟩
  | some (.by c) => .ok ⟨ty, some (c.conv decTy), none, none⟩
  | some (.message m) =>
    match decMsg m with
    | .error e => .error e
    | .ok m' => .ok ⟨ty, none, some m', none⟩
  | some (.enum x) => .ok ⟨ty, none, none, some (x.conv decTy)⟩

/-- `MapExpr` on both sides: name and source of the iterator, and the expression. A missing source has the empty
identifier (`toIterator`, `encode.go` lines 966-974, `decode.go` lines 997-1010), here `none`. -/
structure MapE (I : Type) where
  iterator : Option (Name × Option Name)
  expr : Option I
deriving DecidableEq, Repr

/-- `encoder.toMapExpr`, `grpc/federation/generator/encode.go` lines 956-964. -/
def encMap (m : MapE IterExpr) : MapE (Option PTy × Option PIter) := ⟨m.iterator, m.expr.map encIter⟩

/-- `decoder.toMapExpr`, `grpc/federation/generator/decode.go` lines 978-995. -/
def decMap (m : MapE (Option PTy × Option PIter)) : Except Unit (MapE IterExpr) :=
  match m.expr with
  | none => .ok ⟨m.iterator, none⟩
  | some x =>
    match decIter x with
    | .error e => .error e
    | .ok x' => .ok ⟨m.iterator, some x'⟩

/-- `resolver.VariableExpr`: one field for each kind of expression. -/
structure VarExpr where
  ty : Option Ty
  «by» : Option (CEL Ty)
  map : Option (MapE IterExpr)
  call : Option Call
  message : Option (Msg Ty)
  enum : Option (EnumE Ty)
  validation : Option (Option GErr)
deriving DecidableEq, Repr

/-- `plugin.VariableExpr.Expr`. -/
inductive PExpr where
  | by (c : CEL PTy)
  | map (m : MapE (Option PTy × Option PIter))
  | call (c : PCall)
  | message (m : Msg PTy)
  | enum (e : EnumE PTy)
  | validation (e : Option PErr)
deriving DecidableEq, Repr

/-- `encoder.toVariableExpr` and `toValidationExpr`, `grpc/federation/generator/encode.go` lines 920-954, 1117-1124: the first expression that is set. -/
def encExpr (e : VarExpr) : Option PTy × Option PExpr :=
  (e.ty.map encTy,
    match e.by, e.map, e.call, e.message, e.enum, e.validation with
    | some c, _, _, _, _, _ => some (.by (c.conv encTy))
    | none, some m, _, _, _, _ => some (.map (encMap m))
    | none, none, some c, _, _, _ => some (.call (encCall c))
    | none, none, none, some m, _, _ => some (.message (encMsg m))
    | none, none, none, none, some x, _ => some (.enum (x.conv encTy))
    | none, none, none, none, none, some v => some (.validation (v.map encErr))
    | none, none, none, none, none, none => none)

/-- `decoder.toVariableExpr` and `toValidationExpr`, `grpc/federation/generator/decode.go` lines 934-976, 1210-1222. -/
def decExpr (e : Option PTy × Option PExpr) : Except Unit VarExpr :=
  let ty := e.1.map decTy
  match e.2 with
  | none => .ok ⟨ty, none, none, none, none, none, none⟩
  | some (.by c) => .ok ⟨ty, some (c.conv decTy), none, none, none, none, none⟩
  | some (.map m) =>
    match decMap m with
    | .error e => .error e
    | .ok m' => .ok ⟨ty, none, some m', none, none, none, none⟩
  | some (.call c) =>
    match decCall c with
    | .error e => .error e
    | .ok c' => .ok ⟨ty, none, none, some c', none, none, none⟩
  | some (.message m) =>
    match decMsg m with
    | .error e => .error e
    | .ok m' => .ok ⟨ty, none, none, none, some m', none, none⟩
  | some (.enum x) => .ok ⟨ty, none, none, none, none, some (x.conv decTy), none⟩
  | some (.validation v) => .ok ⟨ty, none, none, none, none, none, some (v.map decErr)⟩

/-- `VariableDefinition` on both sides; `C` and `X` are its condition and expression. -/
structure Definition (C X : Type) where
  idx : Int
  name : Name
  ifv : Option C
  autoBind : Bool
  used : Bool
  expr : Option X
deriving DecidableEq, Repr

/-- `encoder.toVariableDefinition`, `grpc/federation/generator/encode.go` lines 839-859. -/
def encDef (d : Definition (CEL Ty) VarExpr) : Definition (CEL PTy) (Option PTy × Option PExpr) :=
  ⟨d.idx, d.name, d.ifv.map (CEL.conv encTy), d.autoBind, d.used, d.expr.map encExpr⟩

/-- `decoder.toVariableDefinition`, `grpc/federation/generator/decode.go` lines 832-864. -/
def decDef (d : Definition (CEL PTy) (Option PTy × Option PExpr)) : Except Unit (Definition (CEL Ty) VarExpr) :=
  match d.expr with
  | none => .ok ⟨d.idx, d.name, d.ifv.map (CEL.conv decTy), d.autoBind, d.used, none⟩
  | some x =>
    match decExpr x with
    | .error e => .error e
    | .ok x' => .ok ⟨d.idx, d.name, d.ifv.map (CEL.conv decTy), d.autoBind, d.used, some x'⟩

end Verif.Codegen
