/-!
# Values passed to and returned from plugin functions

Models the host side of the codec, `refToCELPluginValue` and `celPluginValueToRef`
(`grpc/federation/cel/plugin.go` lines 402-547), the plugin side, `ToInt32` ... `ToMessageList` and
`To...CELPluginResponse` (`grpc/federation/cel_plugin.go` lines 37-400), which of them the generated plugin
calls (`Converter`, `generator/code_generator.go` lines 169-309) and `recvResponse` (`plugin.go` lines
352-366).

The JSON transport between both (protojson) is assumed to be lossless and is not modelled. Floating point
numbers and messages are abstract; `f32` is rounding to float32. CEL values have the type the function was
declared with (cel-go checks this), other values are `none`. Enum results are not modelled here: the
generated code passes the enum to `ToInt32CELPluginResponse`, which does not compile.
-/

namespace Verif.Plugin

/-- Go types of parameters and results of plugin functions (`toTypeText`), lists aside. -/
inductive Elem where
  | float64 | float32 | int32 | int64 | uint32 | uint64 | bool | string | bytes | enum | message
deriving DecidableEq, Repr

/-- Scalar values. Host, wire and plugin use the same representation; which values occur depends on the
type. -/
inductive Val (D M : Type) where
  | int (i : Int)
  | uint (n : Nat)
  | double (d : D)
  | bool (b : Bool)
  | string (s : String)
  | bytes (b : List Nat)
  | msg (m : M)
deriving DecidableEq, Repr

/-- CEL types (`toCELTypeDeclare`). -/
inductive Kind where
  | int | uint | double | bool | string | bytes | struct
deriving DecidableEq, Repr

/-- The CEL type a parameter is declared with. -/
def celKind : Elem → Kind
  | .float64 | .float32 => .double
  | .int32 | .int64 | .enum => .int
  | .uint32 | .uint64 => .uint
  | .bool => .bool
  | .string => .string
  | .bytes => .bytes
  | .message => .struct

/-- `refToCELPluginValue` for one value, `grpc/federation/cel/plugin.go` lines 423-487. -/
def encode {D M} : Kind → Val D M → Option (Val D M)
  | .bool, .bool b => some (.bool b)
  | .double, .double d => some (.double d)
  | .int, .int i => some (.int i)
  | .bytes, .bytes b => some (.bytes b)
  | .string, .string s => some (.string s)
  | .uint, .uint n => some (.uint n)
  | .struct, .msg m => some (.msg m)
  | _, _ => none

/-- `refToCELPluginValue` for lists, `grpc/federation/cel/plugin.go` lines 402-422. -/
def encodeList {D M} (k : Kind) : List (Val D M) → Option (List (Val D M))
  | [] => some []
  | v :: vs => match encode k v with
    | none => none
    | some e => (encodeList k vs).map (e :: ·)

/-- `int32(v)`. -/
def wrapI32 (i : Int) : Int := (i + 2147483648) % 4294967296 - 2147483648

/-- `uint32(v)`. -/
def wrapU32 (n : Nat) : Nat := n % 4294967296

/-- Zero values and rounding. -/
structure Num (D M : Type) where
  zero : D
  f32 : D → D
  /-- What `GetMessage().UnmarshalNew()` gives for a missing message. -/
  nilMsg : M

/-- Getters of the wire value (`GetInt64` ...). -/
def getInt {D M} : Val D M → Int
  | .int i => i
  | _ => 0
def getUint {D M} : Val D M → Nat
  | .uint n => n
  | _ => 0
def getDouble {D M} (N : Num D M) : Val D M → D
  | .double d => d
  | _ => N.zero
def getBool {D M} : Val D M → Bool
  | .bool b => b
  | _ => false
def getString {D M} : Val D M → String
  | .string s => s
  | _ => ""
def getBytes {D M} : Val D M → List Nat
  | .bytes b => b
  | _ => []
def getMsg {D M} (N : Num D M) : Val D M → M
  | .msg m => m
  | _ => N.nilMsg

/-- `ToInt32`, ..., `ToMessage`: the argument the plugin function gets. -/
def decode {D M} (N : Num D M) : Elem → Val D M → Val D M
  | .float64, v => .double (getDouble N v)
  | .float32, v => .double (N.f32 (getDouble N v))
  | .int32, v => .int (wrapI32 (getInt v))
  | .int64, v => .int (getInt v)
  | .uint32, v => .uint (wrapU32 (getUint v))
  | .uint64, v => .uint (getUint v)
  | .bool, v => .bool (getBool v)
  | .string, v => .string (getString v)
  | .bytes, v => .bytes (getBytes v)
  | .enum, v => .int (wrapI32 (getInt v))
  | .message, v => .msg (getMsg N v)

/-- `ToInt32List`, ... -/
def decodeList {D M} (N : Num D M) (t : Elem) (vs : List (Val D M)) : List (Val D M) := vs.map (decode N t)

/-- `ToInt32CELPluginResponse`, ...: the wire value of a result. All widen or keep the value. -/
def encodeResult {D M} : Elem → Val D M → Option (Val D M)
  | .float64, .double d | .float32, .double d => some (.double d)
  | .int32, .int i | .int64, .int i => some (.int i)
  | .uint32, .uint n | .uint64, .uint n => some (.uint n)
  | .bool, .bool b => some (.bool b)
  | .string, .string s => some (.string s)
  | .bytes, .bytes b => some (.bytes b)
  | .message, .msg m => some (.msg m)
  | _, _ => none

/-- `celPluginValueToRef` for one value, `grpc/federation/cel/plugin.go` lines 504-520. -/
def toRef {D M} (N : Num D M) : Kind → Val D M → Val D M
  | .bool, v => .bool (getBool v)
  | .bytes, v => .bytes (getBytes v)
  | .double, v => .double (getDouble N v)
  | .int, v => .int (getInt v)
  | .string, v => .string (getString v)
  | .uint, v => .uint (getUint v)
  | .struct, v => .msg (getMsg N v)

/-- `plugin.CELPluginResponse`: the plugin fills in one of both. -/
structure Response (D M : Type) where
  error : String
  value : Option (Val D M)

/-- What the generated plugin sends for the outcome of a function (`plugin.go.tmpl` lines 41-44, 80-84). -/
def respond {D M} (t : Elem) : Except String (Val D M) → Option (Response D M)
  | .error e => some ⟨e, none⟩
  | .ok v => (encodeResult t v).map (fun w => ⟨"", some w⟩)

/-- A value no getter matches, for a missing value. -/
def zeroOf {D M} (N : Num D M) : Kind → Val D M
  | .bool => .bool false
  | .bytes => .bytes []
  | .double => .double N.zero
  | .int => .int 0
  | .string => .string ""
  | .uint => .uint 0
  | .struct => .msg N.nilMsg

/-- `recvResponse`, `grpc/federation/cel/plugin.go` lines 353-367: what the call evaluates to. -/
def receive {D M} (N : Num D M) (k : Kind) (r : Response D M) : Except String (Val D M) :=
  if r.error ≠ "" then .error r.error
  else match r.value with
    | some v => .ok (toRef N k v)
    | none => .ok (zeroOf N k)

end Verif.Plugin
