/-!
# Types of expressions and variables

Models `ToCELType`, `toCELType`, `toEnumSelectorCELType`, `FindStructFieldType` and `LookupEnum`
(`resolver/cel.go` lines 50-129), `fromCELType` (`resolver/resolver.go` lines 4780-4885), and how the type of
a definition is found and declared to the following expressions (`resolveVariableDefinitionCELValues`,
`resolveVariableExprCELValues`, `resolveMapExprCELValues`, `resolver/resolver.go` lines 3907-4018).

cel-go is trusted: `NewObjectType` replaces the well-known types (`wellKnown` below), and the type of a field is
found from its descriptor. Types that could not be resolved are not modelled.
-/

namespace Verif.CelTy

/-- A full name, split at the dots. -/
abbrev Name := List String

/-- `types.Kind` (`types/types.go` lines 5-28) without groups, messages and enums. -/
inductive Kind where
  | double | float | int64 | uint64 | int32 | fixed64 | fixed32 | bool | string | bytes | uint32
  | sfixed32 | sfixed64 | sint32 | sint64
deriving DecidableEq, Repr

/-- `resolver.Type` (`resolver/types.go` lines 411-418): messages and enums by name, map entries by their two
fields, `selector` for the result of `grpc.federation.enum.select` (`resolver/message.go` lines 43-61). The
last argument is `Repeated`. -/
inductive Ty where
  | null (repeated : Bool)
  | scalar (k : Kind) (repeated : Bool)
  | msg (n : Name) (repeated : Bool)
  | enum (n : Name) (repeated : Bool)
  | map (k v : Ty) (repeated : Bool)
  | selector (t f : Ty) (repeated : Bool)
deriving DecidableEq, Repr

/-- Primitive types of CEL. -/
inductive Prim where
  | bool | bytes | double | int | uint | string
deriving DecidableEq, Repr

/-- Types of CEL (cel-go, `common/types/types.go`). `tagged e` is the copy of the type `int` that
`FindStructFieldType` makes for a field of the enum `e` and remembers by its address (`resolver/cel.go` lines
53-62). `opq n p` has one parameter, `sel` is the opaque type of enum selectors with two. -/
inductive CTy where
  | prim (p : Prim)
  | wrapper (p : Prim)
  | tagged (e : Name)
  | any | duration | timestamp | null | dyn
  | list (t : CTy)
  | map (k v : CTy)
  | obj (n : Name)
  | opq (n : Name) (p : CTy)
  | sel (t f : CTy)
  /-- no type: the generator panics -/
  | crash
deriving DecidableEq, Repr

def wk (s : String) : Name := ["google", "protobuf", s]

/-- The names `NewObjectType` of cel-go replaces. -/
def wellKnown : List (Name × CTy) := [
  (wk "BoolValue", .wrapper .bool), (wk "BytesValue", .wrapper .bytes), (wk "DoubleValue", .wrapper .double),
  (wk "FloatValue", .wrapper .double), (wk "Int64Value", .wrapper .int), (wk "Int32Value", .wrapper .int),
  (wk "UInt64Value", .wrapper .uint), (wk "UInt32Value", .wrapper .uint), (wk "StringValue", .wrapper .string),
  (wk "Any", .any), (wk "Duration", .duration), (wk "Timestamp", .timestamp),
  (wk "ListValue", .list .dyn), (wk "NullValue", .null), (wk "Struct", .map (.prim .string) .dyn),
  (wk "Value", .dyn)]

/-- `cel.ObjectType`. -/
def objectType (n : Name) : CTy := match wellKnown.lookup n with
  | some c => c
  | none => .obj n

/-- The primitive kinds, `resolver/cel.go` lines 96-105 and 117-118. -/
def primOf : Kind → Prim
  | .double | .float => .double
  | .int32 | .int64 | .sfixed32 | .sfixed64 | .sint32 | .sint64 => .int
  | .uint32 | .uint64 | .fixed32 | .fixed64 => .uint
  | .bool => .bool
  | .string => .string
  | .bytes => .bytes

def listIf (repeated : Bool) (c : CTy) : CTy := if repeated then .list c else c

/-- `EnumSelectorFQDN`, `grpc/federation/cel/enum.go` line 16. -/
def selectorName : Name := ["grpc", "federation", "private", "EnumSelector"]

/-- The type of a message that is no map entry, `resolver/cel.go` lines 113-116 and 123-125: a message named like enum
selectors is taken for one. If it has no fields (`NewCELStandardLibraryMessageType`, `resolver/cel.go` lines
196-213), line 124 is out of range. -/
def msgCEL (n : Name) : CTy := if n = selectorName then .crash else objectType n

/-- `ToCELType` (`outer`), `toCELType` and `toEnumSelectorCELType`, `resolver/cel.go` lines 87-129. Fields of maps
and arms of selectors are converted by `toCELType`, which ignores `Repeated`. -/
def toCEL : Bool → Ty → CTy
  | outer, .null r => listIf (outer && r) .null
  | outer, .scalar k r => listIf (outer && r) (.prim (primOf k))
  | outer, .msg n r => listIf (outer && r) (msgCEL n)
  | outer, .enum n r => listIf (outer && r) (.opq n (.prim .int))
  | outer, .map k v r => listIf (outer && r) (.map (toCEL false k) (toCEL false v))
  | outer, .selector t f r => listIf (outer && r) (.sel (toCEL false t) (toCEL false f))

/-- What the resolver knows about names: `cachedEnumMap` and the messages `resolveType` finds. -/
structure Known where
  enums : Name → Bool
  msgs : Name → Bool

/-- The types of primitive types, `resolver/resolver.go` lines 4783-4815. -/
def ofPrim : Prim → Kind
  | .bool => .bool
  | .bytes => .bytes
  | .double => .double
  | .int => .int64
  | .uint => .uint64
  | .string => .string

/-- `BoolValueType`, ..., `resolver/wellknown_types.go` lines 3-67. -/
def ofWrapper : Prim → Name
  | .bool => wk "BoolValue"
  | .bytes => wk "BytesValue"
  | .double => wk "DoubleValue"
  | .int => wk "Int64Value"
  | .uint => wk "UInt64Value"
  | .string => wk "StringValue"

/-- `typ.Clone()` with `Repeated = true`, `resolver/resolver.go` lines 4837-4838. -/
def asRepeated : Ty → Ty
  | .null _ => .null true
  | .scalar k _ => .scalar k true
  | .msg n _ => .msg n true
  | .enum n _ => .enum n true
  | .map k v _ => .map k v true
  | .selector t f _ => .selector t f true

/-- Whether a type may be an arm of an enum selector, `resolver/resolver.go` line 4872. -/
def isArm : Ty → Bool
  | .enum _ _ => true
  | .selector _ _ r => !r -- `FQDN` of a repeated selector starts with "repeated "
  | _ => false

/-- Message types, `resolver/resolver.go` lines 4840-4856, with `IsStandardLibraryType`,
`grpc/federation/cel/lib.go` lines 43-45. -/
def fromObj (K : Known) (n : Name) : Option Ty := match n with
  | "grpc" :: "federation" :: a :: b :: _ => some (.msg ["grpc", "federation", a, b] false)
  | ["grpc", "federation", _] => none
  | n => if K.msgs n then some (.msg n false) else none

/-- `fromCELType`, `resolver/resolver.go` lines 4780-4885. `none` is an error. -/
def fromCEL (K : Known) : CTy → Option Ty
  | .prim p => some (.scalar (ofPrim p) false)
  | .wrapper p => some (.msg (ofWrapper p) false)
  | .tagged e => some (.enum e false)
  | .any => some (.msg (wk "Any") false)
  | .duration => some (.msg (wk "Duration") false)
  | .timestamp => some (.msg (wk "Timestamp") false)
  | .null => some (.null false)
  | .dyn => none
  | .crash => none
  | .map k v => match fromCEL K k with
    | none => none
    | some k' => match fromCEL K v with
      | none => none
      | some v' => some (.map k' v' false)
  | .list t => match fromCEL K t with
    | none => none
    | some t' => some (asRepeated t')
  | .obj n => fromObj K n
  | .opq n p => if K.enums n && p = .prim .int then some (.enum n false) else fromCEL K p
  | .sel t f => match fromCEL K t with
    | none => none
    | some t' => match fromCEL K f with
      | none => none
      | some f' => if isArm t' && isArm f' then some (.selector t' f' false) else none

/-- The type cel-go finds for a field from its descriptor: enums are integers. -/
def ofDescriptor : Ty → CTy
  | .null r => listIf r .null
  | .scalar k r => listIf r (.prim (primOf k))
  | .msg n r => listIf r (objectType n)
  | .enum _ r => listIf r (.prim .int)
  | .map k v r => listIf r (.map (ofDescriptor k) (ofDescriptor v))
  | .selector _ _ r => listIf r .dyn

/-- `FindStructFieldType`, `resolver/cel.go` lines 50-81, for a field that is no oneof: the type of an enum field
is copied and remembered. `fromCELType` asks `LookupEnum` only for the kind int (`resolver/resolver.go` lines
4798-4805), so the tag of a list is never looked at and is left out here. -/
def fieldCEL : Ty → CTy
  | .enum e false => .tagged e
  | t => ofDescriptor t

/-- The type of the variable a definition `by: e` declares, for an expression of CEL type `c`
(`resolver/resolver.go` lines 3931-3933 and 3950-3959): the result type (`value.Out`), and the type it is
declared with. -/
def declared (K : Known) (c : CTy) : Option (Ty × CTy) := match fromCEL K c with
  | none => none
  | some t => some (t, toCEL true t)

/-- The type of `def { name: "x" map { iterator { name: "i" src: "s" } by: e } }` (`resolver/resolver.go` lines
3976-4018), where `ty` gives the CEL type of `e` for an iterator of a CEL type. -/
def mapType (K : Known) (src : Ty) (ty : CTy → Option CTy) : Option Ty :=
  match src with
  | .null true => result (.null false)
  | .scalar k true => result (.scalar k false)
  | .msg n true => result (.msg n false)
  | .enum n true => result (.enum n false)
  | .map k v true => result (.map k v false)
  | .selector t f true => result (.selector t f false)
  | _ => none
where
  result (it : Ty) : Option Ty := match ty (toCEL true it) with
    | none => none
    | some c => match fromCEL K c with
      | none => none
      | some t => some (asRepeated t)

end Verif.CelTy
