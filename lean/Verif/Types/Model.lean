/-!
# Which values may be bound to a field

Models `isDifferentType`, `validateBindFieldType`, `validateBindFieldEnumSelectorType`,
`validateRequestFieldType`, `findMessageAliasName` and `findEnumAliasName`
(`resolver/resolver.go` lines 1580-1837 and 5301-5316), and `IsNumber`, `IsNumberWrapper`,
`IsEnumSelector` (`resolver/types.go` lines 431-460).

Types that could not be resolved (nil types, message types without message) are not modelled: they are
reported elsewhere and accepted here.
-/

namespace Verif.Types

abbrev Name := String

/-- `types.Kind` (`types/types.go` lines 5-28) without message and enum, which carry their names. -/
inductive Kind where
  | double | float | int64 | uint64 | int32 | fixed64 | fixed32 | bool | string | group | bytes | uint32
  | sfixed32 | sfixed64 | sint32 | sint64
deriving DecidableEq, Repr

/-- `resolver.Type`. `null` is `NullType`; `selector t f` is the type of
`grpc.federation.enum.select(cond, t, f)`, a message with two fields of these types. -/
inductive Ty where
  | scalar (k : Kind) (repeated : Bool)
  | msg (name : Name) (repeated : Bool)
  | enum (name : Name) (repeated : Bool)
  | selector (t f : Ty)
  | null
deriving DecidableEq, Repr

/-- What is known about named types: the fields `key` and `value` of map entries, and the declared
aliases. -/
structure Schema where
  mapEntry : Name → Option (Ty × Ty)
  msgAliases : Name → List Name
  enumAliases : Name → List Name
  /-- `WrapperNumberTypeMap`, `wellknown_types.go` lines 68-75. -/
  wrapper : Name → Bool

/-- `EnumSelectorFQDN`, `grpc/federation/cel/enum.go`. -/
def selectorName : Name := "grpc.federation.private.EnumSelector"

def isNumberKind : Kind → Bool
  | .bool | .string | .group | .bytes => false
  | _ => true

/-- `IsNumber`, `resolver/types.go` lines 431-448. -/
def isNumber : Ty → Bool
  | .scalar k _ => isNumberKind k
  | _ => false

/-- The kind of a type as far as comparisons go; `none` for null. -/
inductive KindOf where
  | scalar (k : Kind)
  | message
  | enum
  | null
deriving DecidableEq, Repr

def kindOf : Ty → KindOf
  | .scalar k _ => .scalar k
  | .msg _ _ => .message
  | .enum _ _ => .enum
  | .selector _ _ => .message
  | .null => .null

def repeated : Ty → Bool
  | .scalar _ r => r
  | .msg _ r => r
  | .enum _ r => r
  | _ => false

/-- `isDifferentType`, `resolver.go` lines 5301-5316. -/
def isDifferent (frm to : Ty) : Bool :=
  if isNumber frm && isNumber to then false
  else if kindOf frm = .enum && isNumber to then false
  else if frm = .null && (repeated to || kindOf to = .message || kindOf to = .scalar .bytes) then false
  else kindOf frm != kindOf to

/-- `findMessageAliasName` and `findEnumAliasName`, `resolver/resolver.go` lines 1675-1719. -/
def aliased (aliases : Name → List Name) (a b : Name) : Bool :=
  (aliases a).contains b || (aliases b).contains a

inductive Err where
  | mapDiffers | needsAlias | differs | messageTo
deriving DecidableEq, Repr

def diffErr (e : Err) (frm to : Ty) : List Err := if isDifferent frm to then [e] else []

/-- The message part of both functions once both sides are messages (`resolver/resolver.go` lines 1752-1793, 1586-1631). -/
def msgErrs (S : Schema) (frm to : Ty) (a b : Name) : List Err :=
  if S.wrapper a && S.wrapper b then []
  else match S.mapEntry a, S.mapEntry b with
    | some (k, v), some (k', v') => diffErr .mapDiffers k k' ++ diffErr .mapDiffers v v'
    | _, _ =>
      if a = b then []
      else if aliased S.msgAliases a b then diffErr .differs frm to
      else [.needsAlias]

/-- The enum part of both functions (`resolver/resolver.go` lines 1796-1824, 1634-1660). -/
def enumErrs (S : Schema) (frm to : Ty) (a b : Name) : List Err :=
  if a = b then []
  else if aliased S.enumAliases a b then diffErr .differs frm to
  else [.needsAlias]

/-- `validateBindFieldType`, `resolver/resolver.go` lines 1731-1837: value of type `frm` for a response field of type `to`. -/
def bindErrs (S : Schema) : Ty → Ty → List Err
  | .selector t f, to => match to with
    | .enum _ _ => bindErrs S t to ++ bindErrs S f to
    | .msg b _ => msgErrs S (.selector t f) to selectorName b
    | .selector _ _ => []
    | _ => [.messageTo]
  | .msg a r, to => match to with
    | .msg b _ => msgErrs S (.msg a r) to a b
    | .selector _ _ => msgErrs S (.msg a r) to a selectorName
    | _ => [.messageTo]
  | .enum a r, to => match to with
    | .enum b _ => enumErrs S (.enum a r) to a b
    | _ => [] -- `toType.Enum == nil`
  | .scalar k r, to => diffErr .differs (.scalar k r) to
  | .null, to => diffErr .differs .null to

/-- `validateRequestFieldType`, `resolver/resolver.go` lines 1580-1672: value of type `frm` for a request field of type `to`. -/
def requestErrs (S : Schema) (frm to : Ty) : List Err :=
  match to with
  | .msg b _ => match frm with
    | .msg a _ => msgErrs S frm to a b
    | .selector _ _ => msgErrs S frm to selectorName b
    | _ => [] -- `fromType.Message == nil`
  | .enum b _ => match frm with
    | .enum a _ => enumErrs S frm to a b
    | _ => [] -- `fromType.Enum == nil`
  | _ => diffErr .differs frm to

end Verif.Types
