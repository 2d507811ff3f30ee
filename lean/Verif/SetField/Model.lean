import Verif.Types.Model

/-!
# Setting the fields of a message

Models the code that is generated to set a field of a message from its source: `celValueToReturnField`, `autoBindFieldToReturnField` and
`oneofValueToReturnField` (`generator/code_generator.go` lines 2444-2543, 2588-2682) with their templates
(`generator/templates/server.go.tmpl` lines 737-814), the conversion the field declares (`resolver/field.go` lines 31-89,
`resolver/type_conversion.go` lines 13-83), and the function that is made of it (`generator/templates/cast.go.tmpl`,
`generator/code_generator.go` lines 1970-2046).

Simplified: whether the conversion of a message into another compiles is a parameter (C120 says when), and so is the code for
`enum.select` (C84). Conversion functions are found by their two types (C35, C55).
-/

namespace Verif.SetField

open Verif.Types (Name Kind Ty Schema isNumberKind repeated)

/-- What becomes of the code: the tool crashes, the code does not compile, or it does. -/
inductive Out where
  | panic | broken | ok
deriving DecidableEq, Repr

def Out.of (b : Bool) : Out := if b then .ok else .broken

/-- The parameters: which conversions of messages compile, and which values of `enum.select` can be set. -/
structure Env where
  msg : Name → Name → Bool
  selector : Ty → Ty → Bool

/-- Go types. -/
inductive GoTy where
  | f64 | f32 | i64 | u64 | i32 | u32 | bool | string | bytes | any | group
  | ptr (m : Name) | enum (e : Name) | slice (t : GoTy) | map (k v : GoTy)
deriving DecidableEq, Repr

/-- The scalar types of `toTypeText`, `generator/code_generator.go` lines 1129-1159; there is none for groups. -/
def goKind : Kind → GoTy
  | .double => .f64
  | .float => .f32
  | .int32 | .sint32 | .sfixed32 => .i32
  | .int64 | .sint64 | .sfixed64 => .i64
  | .uint32 | .fixed32 => .u32
  | .uint64 | .fixed64 => .u64
  | .bool => .bool
  | .string => .string
  | .bytes => .bytes
  | .group => .group

/-- `toTypeText` of a type that is neither a list nor a map, `generator/code_generator.go` lines 1116-1175. -/
def goBase : Ty → GoTy
  | .scalar k _ => goKind k
  | .msg n _ => .ptr n
  | .enum e _ => .enum e
  | .selector _ _ => .ptr Verif.Types.selectorName
  | .null => .any

/-- `toTypeText` without oneof, `generator/code_generator.go` lines 1116-1175. -/
def goTy (S : Schema) (t : Ty) : GoTy :=
  let plain := if repeated t then .slice (goBase t) else goBase t
  match t with
  | .msg n _ => match S.mapEntry n with
    | some (k, v) => .map (goBase k) (goBase v)
    | none => plain
  | _ => plain

/-- Whether Go can compare a value with nil. -/
def nilable : GoTy → Bool
  | .ptr _ | .bytes | .slice _ | .map _ _ | .any => true
  | _ => false

/-- `requiredTypeConversion` of types that are no maps, `resolver/type_conversion.go` lines 118-139. -/
def reqBase : Ty → Ty → Bool
  | .msg a _, .msg b _ => a != b
  | .enum a _, .enum b _ => a != b
  | .scalar k _, .scalar k' _ => k != k'
  | .null, .null => false
  | _, _ => true

def entry (S : Schema) : Ty → Option (Ty × Ty)
  | .msg n _ => S.mapEntry n
  | _ => none

/-- `requiredTypeConversion`, `resolver/type_conversion.go` lines 118-139. -/
def required (S : Schema) (a b : Ty) : Bool :=
  match entry S a, entry S b with
  | some (k, v), some (k', v') => reqBase k k' || reqBase v v'
  | some _, none => false
  | none, _ => reqBase a b

/-- The kinds of integers. -/
def isInteger : Kind → Bool
  | .double | .float => false
  | k => isNumberKind k

/-- Whether the Go conversion `T(from)` compiles for scalars: template `castDefault`, `generator/templates/cast.go.tmpl`. -/
def scalarCast (k k' : Kind) : Bool :=
  (isNumberKind k && isNumberKind k') || (isInteger k && k' == .string) || (k == .string && k' == .bytes) || (k == .bytes && k' == .string)

/-- The function for two types that are neither lists nor maps, outside of oneofs: the dispatch in
`generator/templates/server.go.tmpl` lines 613-631. For a message and another type `typeConversionDecls` crashes,
`resolver/type_conversion.go` line 72. -/
def single (E : Env) : Ty → Ty → Out
  | .msg a _, .msg b _ => .of (E.msg a b)
  | .msg _ _, _ => .panic
  | .enum _ _, .enum _ _ => .ok
  | .enum _ _, .scalar k _ => .of (isNumberKind k || k == .string)
  | .scalar k _, .enum _ _ => .of (isNumberKind k)
  | .scalar k _, .scalar k' _ => .of (scalarCast k k')
  | _, _ => .broken

/-- The conversion of the elements, keys or values inside another conversion, if there is one. -/
def inner (E : Env) (a b : Ty) : Out := if reqBase a b then single E a b else .ok

def Out.and : Out → Out → Out
  | .panic, _ | _, .panic => .panic
  | .ok, .ok => .ok
  | _, _ => .broken

/-- The function for two types, `am` and `bm` tell whether they are those of members of oneofs: the dispatch in
`generator/templates/server.go.tmpl` lines 613-631. `castRepeated` makes a list, so the target must be one. A member goes through
`ToOneof` (`generator/code_generator.go` lines 2324-2353), which reads the oneof of the target, and is compared with nil. -/
def conv (S : Schema) (E : Env) (a : Ty) (am : Bool) (b : Ty) (bm : Bool) : Out :=
  if repeated a then (if repeated b then inner E a b else .broken)
  else match entry S a, entry S b with
    | some (k, v), some (k', v') => (inner E k k').and (inner E v v')
    | _, _ =>
      if am then (if !bm then .panic else if nilable (goTy S a) then inner E a b else .broken)
      else if repeated b then .broken
      else single E a b

/-- A field outside of oneofs with `by`: `celValueToReturnField`, `generator/code_generator.go` lines 2505-2543. A scalar is read from the
expression with the Go type of the field. -/
def byCode (S : Schema) (E : Env) (frm to : Ty) : Out :=
  match frm with
  | .scalar _ _ | .null => .ok
  | .selector _ _ => .of (E.selector frm to)
  | _ => if required S frm to then conv S E frm false to false else .of (goTy S frm == goTy S to)

/-- A field outside of oneofs with an autobound value, which is the one of a field that may be in a oneof itself:
`autoBindFieldToReturnField`, `generator/code_generator.go` lines 2444-2480. -/
def autoCode (S : Schema) (E : Env) (frm : Ty) (member : Bool) (to : Ty) : Out :=
  if required S frm to then conv S E frm member to false else .of (goTy S frm == goTy S to)

/-- A member of a oneof with an autobound value: it is compared with nil, converted if its type differs, and assigned to the oneof,
`generator/code_generator.go` lines 2599-2613. Without conversion the value has no wrapper. `synthetic`: the oneof of an `optional`
field, for which there is no field in Go. -/
def memberAuto (S : Schema) (E : Env) (frm : Ty) (member : Bool) (to : Ty) (synthetic : Bool) : Out :=
  if required S frm to then (Out.of (nilable (goTy S frm) && !synthetic)).and (conv S E frm member to true) else .broken

/-- A member of a oneof with an option `oneof`, which has an expression `by`: `generator/code_generator.go` lines 2614-2675. There is no
function to convert null, nor one for `enum.select`. `requiredCast` (lines 3725-3739) reads the message of the target if the value is a
map. -/
def memberBy (S : Schema) (E : Env) (frm to : Ty) (synthetic : Bool) : Out :=
  match frm with
  | .null | .selector _ _ => .broken
  | _ =>
    if (entry S frm).isSome then (match to with | .msg _ _ => .broken | _ => .panic)
    else (Out.of !synthetic).and (if required S frm to then conv S E frm false to true else .of (goTy S frm == goTy S to))

/-- The check of the type of the expression of a member: there is none, `resolver/resolver.go` lines 1555-1576 look at `by`, aliases and
autobound values only. -/
def memberByErrs (_S : Schema) (_frm _to : Ty) : List Verif.Types.Err := []

end Verif.SetField
