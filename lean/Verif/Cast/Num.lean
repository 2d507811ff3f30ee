/-!
# Numeric conversions

Models the checked conversions of `grpc/federation/cast.go`, the choice of conversion in generated
code (`generator/templates/server.go.tmpl` lines 613-631, `generator/code_generator.go` lines
2001-2050, `generator/templates/cast.go.tmpl` lines 166-204) and the naming of conversion functions
(`generator/code_generator.go` lines 3586-3626, 3741-3765).
-/

namespace Verif.Cast

/-- Go integer types. -/
inductive GoInt where
  | int32 | int64 | uint32 | uint64
deriving DecidableEq, Repr

/-- Smallest value. -/
def GoInt.lo : GoInt → Int
  | .int32 => -2147483648
  | .int64 => -9223372036854775808
  | .uint32 => 0
  | .uint64 => 0

/-- Largest value. -/
def GoInt.hi : GoInt → Int
  | .int32 => 2147483647
  | .int64 => 9223372036854775807
  | .uint32 => 4294967295
  | .uint64 => 18446744073709551615

/-- `v` is a value of the type. -/
def InRange (t : GoInt) (v : Int) : Prop := t.lo ≤ v ∧ v ≤ t.hi

/-- The Go conversion `T(v)`: wraps around. -/
def conv (t : GoInt) (v : Int) : Int := (v - t.lo) % (t.hi - t.lo + 1) + t.lo

/-- `grpc/federation/cast.go` lines 5-10. -/
def int64ToInt32 (v : Int) : Except Unit Int :=
  if v < -1 * 2 ^ 31 ∨ 2 ^ 31 ≤ v then .error () else .ok (conv .int32 v)

/-- `grpc/federation/cast.go` lines 12-17. -/
def int64ToUint32 (v : Int) : Except Unit Int :=
  if v < 0 ∨ 2 ^ 32 ≤ v then .error () else .ok (conv .uint32 v)

/-- `grpc/federation/cast.go` lines 19-24. -/
def int64ToUint64 (v : Int) : Except Unit Int := if v < 0 then .error () else .ok (conv .uint64 v)

/-- `grpc/federation/cast.go` lines 26-31. -/
def int32ToUint32 (v : Int) : Except Unit Int := if v < 0 then .error () else .ok (conv .uint32 v)

/-- `grpc/federation/cast.go` lines 33-38. -/
def int32ToUint64 (v : Int) : Except Unit Int := if v < 0 then .error () else .ok (conv .uint64 v)

/-- `grpc/federation/cast.go` lines 40-45. -/
def uint64ToInt32 (v : Int) : Except Unit Int := if 2 ^ 31 ≤ v then .error () else .ok (conv .int32 v)

/-- `grpc/federation/cast.go` lines 47-52. -/
def uint64ToInt64 (v : Int) : Except Unit Int := if 2 ^ 63 ≤ v then .error () else .ok (conv .int64 v)

/-- `grpc/federation/cast.go` lines 54-59. -/
def uint64ToUint32 (v : Int) : Except Unit Int := if 2 ^ 32 ≤ v then .error () else .ok (conv .uint32 v)

/-- `grpc/federation/cast.go` lines 61-66. -/
def uint32ToInt32 (v : Int) : Except Unit Int := if 2 ^ 31 ≤ v then .error () else .ok (conv .int32 v)

/-- The function called `<From>To<To>` of package `grpcfed`, if there is one. -/
def checkedFn : GoInt → GoInt → Option (Int → Except Unit Int)
  | .int64, .int32 => some int64ToInt32
  | .int64, .uint32 => some int64ToUint32
  | .int64, .uint64 => some int64ToUint64
  | .int32, .uint32 => some int32ToUint32
  | .int32, .uint64 => some int32ToUint64
  | .uint64, .int32 => some uint64ToInt32
  | .uint64, .int64 => some uint64ToInt64
  | .uint64, .uint32 => some uint64ToUint32
  | .uint32, .int32 => some uint32ToInt32
  | _, _ => none

/-- Protobuf kinds with integer values, `types/types.go`. Floating point kinds are treated below. -/
inductive Kind where
  | int32 | int64 | uint32 | uint64 | sint32 | sint64 | fixed32 | fixed64 | sfixed32 | sfixed64 | enum
deriving DecidableEq, Repr

/-- `Kind.ToString`, `types/types.go` lines 53-93. -/
def Kind.toStr : Kind → String
  | .int32 => "int32"
  | .int64 => "int64"
  | .uint32 => "uint32"
  | .uint64 => "uint64"
  | .sint32 => "sint32"
  | .sint64 => "sint64"
  | .fixed32 => "fixed32"
  | .fixed64 => "fixed64"
  | .sfixed32 => "sfixed32"
  | .sfixed64 => "sfixed64"
  | .enum => "enum"

/-- `toTypeText`, `code_generator.go` lines 1128-1162; Go enums are `int32`. -/
def Kind.go : Kind → GoInt
  | .int32 => .int32
  | .int64 => .int64
  | .uint32 => .uint32
  | .uint64 => .uint64
  | .sint32 => .int32
  | .sint64 => .int64
  | .fixed32 => .uint32
  | .fixed64 => .uint64
  | .sfixed32 => .int32
  | .sfixed64 => .int64
  | .enum => .int32

/-- `castValidationNumberMap`, `generator/code_generator.go` lines 2031-2041. -/
def validationKeys : List String :=
  [Kind.toStr .int64 ++ Kind.toStr .int32, Kind.toStr .int64 ++ Kind.toStr .uint32,
   Kind.toStr .int64 ++ Kind.toStr .uint64, Kind.toStr .int32 ++ Kind.toStr .uint32,
   Kind.toStr .int32 ++ Kind.toStr .uint64, Kind.toStr .uint64 ++ Kind.toStr .int32,
   Kind.toStr .uint64 ++ Kind.toStr .int64, Kind.toStr .uint64 ++ Kind.toStr .uint32,
   Kind.toStr .uint32 ++ Kind.toStr .int32]

/-- `IsRequiredValidationNumber`, line 2044. -/
def isValidated (a b : Kind) : Bool := validationKeys.contains (a.toStr ++ b.toStr)

/-- The body of the conversion function generated for the kinds `a`, `b`
(`server.go.tmpl` lines 621-631). Conversions between enums are modelled in `Verif.EnumMap`. -/
def generatedCast (a b : Kind) (v : Int) : Except Unit Int :=
  if a = .enum ∧ b ≠ .enum then .ok (conv b.go v)
  else if a ≠ .enum ∧ b = .enum then .ok (conv b.go v)
  else if isValidated a b then
    match checkedFn a.go b.go with
    | some f => f v
    | none => .error ()
  else .ok (conv b.go v)

/-- `toTypeText` as a string, for function names. -/
def GoInt.text : GoInt → String
  | .int32 => "int32"
  | .int64 => "int64"
  | .uint32 => "uint32"
  | .uint64 => "uint64"

/-- `castName` of a numeric type, `generator/code_generator.go` lines 3745-3765 (enums have their own names). -/
def castName (k : Kind) : String := k.go.text

/-- `castFuncName`, line 3742. -/
def castFuncName (a b : Kind) : String := "cast_" ++ castName a ++ "__to__" ++ castName b

/-- `CastFields`, `generator/code_generator.go` lines 3586-3626: a map from function name to the conversion declared last; here the
association list in the order of the assignments (messages in order, declarations of a message
sorted by name). -/
def castFields (decls : List (Kind × Kind)) : List (String × (Kind × Kind)) :=
  decls.map (fun d => (castFuncName d.1 d.2, d))

/-- Reading the map: the last assignment counts. -/
def lookupLast {α} (m : List (String × α)) (k : String) : Option α :=
  (m.reverse.find? (fun p => p.1 == k)).map (·.2)

/-- Converting a value of kind `a` to kind `b` in a service that declares `decls`: the call to the
function of that name. -/
def callCast (decls : List (Kind × Kind)) (a b : Kind) (v : Int) : Option (Except Unit Int) :=
  match lookupLast (castFields decls) (castFuncName a b) with
  | none => none
  | some (a', b') => some (generatedCast a' b' v)

/-- The Go conversion of a floating point number to an integer type, for values whose integral part
is in the range: the fraction is dropped (`castDefault`). Other values are implementation defined
in Go and not modelled. -/
def floatToInt (t : GoInt) (q : Rat) : Except Unit Int := .ok (conv t (q.num.tdiv q.den))

end Verif.Cast
