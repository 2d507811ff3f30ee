import Verif.GoNames.Model

/-!
# The functions that log messages

Models `LogValues` of `generator/code_generator.go` (lines 1233-1559), which makes one Go function for each message, enum,
list and map that a service may log, the part of `server.go.tmpl` (lines 634-680) that writes them, and the places that
call them (`server.go.tmpl` lines 545 and 605).

Simplifications: the attributes of a function are added one by one while the walk goes on (lines 1306-1313), here at once,
as they do not depend on it.  Functions are kept in the order in which they are made instead of sorted by name (lines
1279-1286).  Groups of proto2 and the type of `enum.select` are left out.
-/

namespace Verif.LogFn
open Verif.GoNames

/-- The kinds of scalar fields, `types/types.go` lines 7-27 without groups. -/
inductive Kind where
  | double | float | int64 | uint64 | int32 | fixed64 | fixed32 | bool | string | bytes | uint32
  | sfixed32 | sfixed64 | sint32 | sint64
deriving DecidableEq, Repr

/-- `resolver.Type`.  A map type has the full name of its map entry, which is a single dot if it was made by `NewMapType`
(`resolver/message.go` lines 22-30, `resolver/fqdn.go` lines 22-30), as those of expressions are
(`resolver/resolver.go` line 4831). -/
inductive Ty where
  | scalar (k : Kind) (rep : Bool)
  | msg (i : Nat) (rep : Bool)
  | enum (e : Nat) (rep : Bool)
  | map (name : Name) (key : Kind) (val : Ty)
deriving DecidableEq, Repr

structure Field where
  name : Name
  ty : Ty
deriving DecidableEq, Repr

/-- A message: its package, the names of the messages around it and its own, its fields, the messages and map entries
declared in it, the enums declared in it, and if it has the option, the fields of its argument and the variables that are
marked as used. -/
structure Msg where
  pkg : Name
  path : List Name
  fields : List Field
  nested : List Ty
  enums : List Nat
  arg : Option (List Field × List Field)

/-- An enum: its full name and its values with their numbers. -/
structure Enum where
  fqdn : Name
  values : List (Name × Int)

structure World where
  msgs : List Msg
  enums : List Enum

def noMsg : Msg := ⟨[], [], [], [], [], none⟩
def noEnum : Enum := ⟨[], []⟩

def World.msg (w : World) (i : Nat) : Msg := w.msgs.getD i noMsg
def World.enum (w : World) (e : Nat) : Enum := w.enums.getD e noEnum

/-- `strings.Join`. -/
def join (sep : Char) : List Name → Name
  | [] => []
  | [w] => w
  | w :: ws => w ++ sep :: join sep ws

/-- `Message.FQDN`, `resolver/fqdn.go` lines 22-30. -/
def Msg.fqdn (m : Msg) : Name := join '.' (m.pkg :: m.path)

/-- The name of the argument (`newMessageArgument`, `resolver/message.go` lines 63-73) in the package of the message, as
`setLogValueByMessageArgument` has it (`generator/code_generator.go` lines 1352-1366). -/
def Msg.argName (m : Msg) : Name := m.pkg ++ '.' :: (join '_' m.path ++ ['A', 'r', 'g', 'u', 'm', 'e', 'n', 't'])

/-- `fullMessageName`, `generator/code_generator.go` lines 3717-3719. -/
def Msg.goName (m : Msg) : Name := fqdnToGoName m.fqdn

/-- The name of the argument type: `argName` in `newTypeDeclaresWithMessage`, `generator/code_generator.go` lines 755-756,
and `RequestType`, lines 1740-1743.  The name of the service before it is left out. -/
def Msg.structName (m : Msg) : Name := m.goName ++ ['A', 'r', 'g', 'u', 'm', 'e', 'n', 't']

def logvalue (n : Name) : Name := ['l', 'o', 'g', 'v', 'a', 'l', 'u', 'e', '_'] ++ n

def logvalueRepeated (n : Name) : Name :=
  ['l', 'o', 'g', 'v', 'a', 'l', 'u', 'e', '_', 'r', 'e', 'p', 'e', 'a', 't', 'e', 'd', '_'] ++ n

/-- The Go name that the name of a function is made of. -/
def goNameOf (w : World) : Ty → Name
  | .scalar _ _ => []
  | .msg i _ => (w.msg i).goName
  | .enum e _ => fqdnToGoName (w.enum e).fqdn
  | .map n _ _ => fqdnToGoName n

/-- `logValueFuncName`, `generator/code_generator.go` lines 1544-1559 with 1435-1449; without `s.`. -/
def fnName (w : World) : Ty → Name
  | .scalar _ _ => []
  | .msg i true => logvalueRepeated (goNameOf w (.msg i true))
  | .msg i false => logvalue (goNameOf w (.msg i false))
  | .enum e true => logvalueRepeated (goNameOf w (.enum e true))
  | .enum e false => logvalue (goNameOf w (.enum e false))
  | .map n k v => logvalue (goNameOf w (.map n k v))

/-- Go types. `value` is `slog.Value`. -/
inductive GoTy where
  | f64 | f32 | i64 | u64 | i32 | u32 | bool | string | bytes | value
  | ptr (i : Nat) | enum (e : Nat) | slice (t : GoTy) | map (k v : GoTy) | struct (n : Name)
deriving DecidableEq, Repr

/-- The scalar types of `toTypeText`, `generator/code_generator.go` lines 1129-1159. -/
def goKind : Kind → GoTy
  | .double => .f64
  | .float => .f32
  | .int32 | .sint32 | .sfixed32 => .i32
  | .int64 | .sint64 | .sfixed64 => .i64
  | .uint32 | .fixed32 => .u32
  | .uint64 | .fixed64 => .u64
  | .bool => .bool
  | .string => .string
  | .bytes => .bytes

def slices (rep : Bool) (t : GoTy) : GoTy := if rep then .slice t else t

/-- `toTypeText`, `generator/code_generator.go` lines 1116-1175.  Messages and enums stand for their Go types. -/
def goTy : Ty → GoTy
  | .scalar k r => slices r (goKind k)
  | .msg i r => slices r (.ptr i)
  | .enum e r => slices r (.enum e)
  | .map _ k v => .map (goKind k) (goTy v)

/-- The functions of `slog` that make attributes. -/
inductive Slog where
  | any | int64 | uint64 | float64 | bool | string
deriving DecidableEq, Repr

/-- `logType`, `generator/code_generator.go` lines 1451-1473. -/
def logType : Ty → Slog
  | .scalar _ true | .msg _ _ | .enum _ true | .map _ _ _ => .any
  | .scalar .double false | .scalar .float false => .float64
  | .scalar .int32 false | .scalar .int64 false | .scalar .sint32 false | .scalar .sint64 false
  | .scalar .sfixed32 false | .scalar .sfixed64 false => .int64
  | .scalar .uint32 false | .scalar .uint64 false | .scalar .fixed32 false | .scalar .fixed64 false => .uint64
  | .scalar .bool false => .bool
  | .scalar .string false | .scalar .bytes false => .string
  | .enum _ false => .string

/-- Expressions in the generated functions, over the value of a field or of an entry of a map: the value, a conversion, a
call, a call followed by `.String()`, and for maps `slog.AnyValue`, `slog.StringValue(string(value))` and
`slog.StringValue(f(value).String())`. -/
inductive Expr where
  | base
  | conv (t : GoTy)
  | call (f : Name)
  | callString (f : Name)
  | anyValue
  | stringValue
  | stringCall (f : Name)
deriving DecidableEq, Repr

/-- `logValue` and `msgArgumentLogValue`, `generator/code_generator.go` lines 1475-1500 and 1517-1542. -/
def logExpr (w : World) : Ty → Expr
  | .msg i r => .call (fnName w (.msg i r))
  | .map n k v => .call (fnName w (.map n k v))
  | .enum e true => .call (fnName w (.enum e true))
  | .enum e false => .callString (fnName w (.enum e false))
  | .scalar _ true => .base
  | .scalar .int32 false | .scalar .sint32 false | .scalar .sfixed32 false => .conv .i64
  | .scalar .uint32 false | .scalar .fixed32 false => .conv .u64
  | .scalar .float false => .conv .f64
  | .scalar .bytes false => .conv .string
  | .scalar _ false => .base

/-- `logMapValue`, `generator/code_generator.go` lines 1502-1515. -/
def logMapExpr (w : World) : Ty → Expr
  | .msg i r => .call (fnName w (.msg i r))
  | .map n k v => .call (fnName w (.map n k v))
  | .enum e true => .call (fnName w (.enum e true))
  | .enum e false => .stringCall (fnName w (.enum e false))
  | .scalar .bytes _ => .stringValue
  | .scalar _ _ => .anyValue

/-- `LogValueAttr`: `slog.{{ .Type }}("{{ .Key }}", {{ .Value }})`, where the value is an expression over `v.GetX()` or
`v.X`; `sel` is `X`. -/
structure Attr where
  fn : Slog
  key : Name
  sel : Name
  val : Expr
deriving DecidableEq, Repr

/-- The bodies of the functions, `generator/templates/server.go.tmpl` lines 634-680. -/
inductive Body where
  | slice (callee : Name)
  | map (val : Expr)
  | msg (attrs : List Attr)
  | enum (cases : List (Name × Int))
deriving DecidableEq, Repr

structure Fn where
  name : Name
  param : GoTy
  body : Body
deriving DecidableEq, Repr

/-- The attribute of a field, `generator/code_generator.go` lines 1307-1311 and 1378-1382. -/
def attr (w : World) (f : Field) : Attr := ⟨logType f.ty, f.name, toPublicGoVariable f.name, logExpr w f.ty⟩

/-- The function of a type: `setLogValueByMessage` (`generator/code_generator.go` lines 1294-1312), `setLogValueByMapMessage`
(lines 1323-1335), `setLogValueByEnum` (lines 1388-1405) and `setLogValueByRepeatedType` (lines 1409-1432). -/
def makeFn (w : World) : Ty → Fn
  | .scalar k r => ⟨[], goTy (.scalar k r), .enum []⟩
  | .msg i false => ⟨fnName w (.msg i false), goTy (.msg i false), .msg ((w.msg i).fields.map (attr w))⟩
  | .msg i true => ⟨fnName w (.msg i true), goTy (.msg i true), .slice (fnName w (.msg i false))⟩
  | .enum e false => ⟨fnName w (.enum e false), goTy (.enum e false), .enum (w.enum e).values⟩
  | .enum e true => ⟨fnName w (.enum e true), goTy (.enum e true), .slice (fnName w (.enum e false))⟩
  | .map n k v => ⟨fnName w (.map n k v), goTy (.map n k v), .map (logMapExpr w v)⟩

/-- The function of the argument of a message, `setLogValueByMessageArgument`, `generator/code_generator.go` lines
1366-1382.  The parameter has a type named after the argument (line 1372). -/
def argFn (w : World) (m : Msg) (fields : List Field) : Fn :=
  ⟨logvalue (fqdnToGoName m.argName), .struct (fqdnToGoName m.argName), .msg (fields.map (attr w))⟩

/-- `nameToLogValueMap`. -/
abbrev St := List Fn

def has (st : St) (n : Name) : Bool := st.any (·.name == n)

def add (st : St) (f : Fn) : St := if has st f.name then st else st ++ [f]

/-- What the walk goes on with from a message: fields, nested messages, enums, `generator/code_generator.go` lines
1306-1319. -/
def children (m : Msg) : List Ty := m.fields.map (·.ty) ++ m.nested ++ m.enums.map (.enum · false)

def visitAll (visit : Ty → St → Option St) : List Ty → St → Option St
  | [], st => some st
  | t :: ts, st => match visit t st with
    | some st => visitAll visit ts st
    | none => none

/-- `setLogValueByType` with the functions it calls, `generator/code_generator.go` lines 1289-1433, to the given depth. -/
def visit (w : World) : Nat → Ty → St → Option St
  | 0, _, _ => none
  | _ + 1, .scalar _ _, st => some st
  | n + 1, .msg i rep, st =>
    let st' := if has st (fnName w (.msg i false)) then some st
      else visitAll (visit w n) (children (w.msg i)) (st ++ [makeFn w (.msg i false)])
    if rep then st'.map (add · (makeFn w (.msg i true))) else st'
  | _ + 1, .enum e rep, st =>
    let st' := add st (makeFn w (.enum e false))
    some (if rep then add st' (makeFn w (.enum e true)) else st')
  | n + 1, .map nm k v, st =>
    if has st (fnName w (.map nm k v)) then some st else visit w n v (st ++ [makeFn w (.map nm k v)])

/-- `setLogValueByMessageArgument`, `generator/code_generator.go` lines 1352-1385. -/
def visitArg (w : World) (n : Nat) (m : Msg) (st : St) : Option St :=
  match m.arg with
  | none => some st
  | some (fields, _) =>
    if has st (argFn w m fields).name then some st
    else visitAll (visit w n) (fields.map (·.ty)) (st ++ [argFn w m fields])

/-- The loop of `LogValues`, `generator/code_generator.go` lines 1273-1278. -/
def logValues (w : World) (n : Nat) : List Nat → St → Option St
  | [], st => some st
  | i :: is, st => match visitArg w n (w.msg i) st with
    | none => none
    | some st => match visit w n (.msg i false) st with
      | none => none
      | some st => logValues w n is st

/-! ### What Go makes of the functions -/

/-- The fields of the argument type of a message: used variables, then the fields of the argument, the first of each name
(`newTypeDeclaresWithMessage`, `generator/code_generator.go` lines 763-802). -/
def structFields (fields used : List Field) : List (Name × GoTy) :=
  (used ++ fields).map fun f => (toPublicGoVariable f.name, goTy f.ty)

/-- The type of `v.X` or `v.GetX()`. -/
def fieldTy (w : World) (sel : Name) : GoTy → Option GoTy
  | .ptr i => ((w.msg i).fields.find? (fun f => toPublicGoVariable f.name == sel)).map (goTy ·.ty)
  | .struct n => match w.msgs.find? (fun m => m.arg.isSome && m.structName == n) with
    | some m => match m.arg with
      | some (fields, used) => ((structFields fields used).find? (·.1 == sel)).map (·.2)
      | none => none
    | none => none
  | _ => none

def lookup (st : St) (n : Name) : Option Fn := st.find? (·.name == n)

/-- The type of an argument of a function. -/
def paramTy (st : St) (n : Name) : Option GoTy := (lookup st n).map (·.param)

/-- Conversions that are used: between numbers, and from bytes to string. -/
def convertible : GoTy → GoTy → Bool
  | .i32, .i64 | .u32, .u64 | .f32, .f64 | .bytes, .string => true
  | _, _ => false

/-- The type of an expression over a value of type `b`; `none` if it does not compile. -/
def exprTy (st : St) (b : GoTy) : Expr → Option GoTy
  | .base => some b
  | .conv t => if convertible b t then some t else none
  | .call f => if paramTy st f = some b then some .value else none
  | .callString f => if paramTy st f = some b then some .string else none
  | .anyValue => some .value
  | .stringValue => if b = .bytes then some .value else none
  | .stringCall f => if paramTy st f = some b then some .value else none

/-- What the functions of `slog` take. -/
def slogTakes : Slog → GoTy → Bool
  | .any, _ => true
  | .int64, t => t == .i64
  | .uint64, t => t == .u64
  | .float64, t => t == .f64
  | .bool, t => t == .bool
  | .string, t => t == .string

def attrOk (w : World) (st : St) (param : GoTy) (a : Attr) : Bool :=
  match fieldTy w a.sel param with
  | none => false
  | some b => match exprTy st b a.val with
    | none => false
    | some t => slogTakes a.fn t

/-- A function compiles. In a `switch` no number may occur twice. -/
def fnOk (w : World) (st : St) (f : Fn) : Bool :=
  match f.body, f.param with
  | .slice g, .slice t => paramTy st g = some t
  | .map e, .map _ t => exprTy st t e = some .value
  | .msg attrs, p => attrs.all (attrOk w st p)
  | .enum cases, .enum _ => decide (cases.map (·.2)).Nodup
  | _, _ => false

/-! ### What the functions log -/

/-- Go values. A message has the values of its fields in the order of their declaration; a map its keys and values in the
order in which Go visits them. Texts and numbers are numbers. -/
inductive Val where
  | leaf (x : Int)
  | enum (n : Int)
  | nil
  | list (vs : List Val)
  | map (keys : List Int) (vs : List Val)
  | msg (vs : List Val)

inductive Key where
  | name (n : Name)
  | idx (i : Nat)
  | key (k : Int)

/-- Logged values: of a kind, of any type, texts, groups. `bad` stands for a value that has not the type. -/
inductive Log where
  | leaf (k : Slog) (x : Int)
  | any (v : Val)
  | str (s : Name)
  | group (entries : List (Key × Log))
  | bad

/-- The kind of value that `slog.AnyValue` makes of a value of a Go type. -/
def anyKind : GoTy → Slog
  | .i32 | .i64 => .int64
  | .u32 | .u64 => .uint64
  | .f32 | .f64 => .float64
  | .bool => .bool
  | .string => .string
  | _ => .any

/-- The position of a field in a value. -/
def position (fields : List Field) (sel : Name) : Nat := fields.findIdx (fun f => toPublicGoVariable f.name == sel)

/-- The fields whose values a value of this type has. -/
def fieldsOf (w : World) : GoTy → List Field
  | .ptr i => (w.msg i).fields
  | .struct n => match w.msgs.find? (fun m => m.arg.isSome && m.structName == n) with
    | some m => ((m.arg.map (·.1)).getD [])
    | none => []
  | _ => []

/-- `slog.Value.String` of a text. -/
def asString : Log → Log
  | .str s => .str s
  | _ => .bad

/-- The value of an attribute; `call` calls a function. -/
def attrLog (call : Name → Val → Log) (fn : Slog) (v : Val) : Expr → Log
  | .base | .conv _ => match fn, v with
    | .any, v => .any v
    | k, .leaf x => .leaf k x
    | _, _ => .bad
  | .call f => call f v
  | .callString f => asString (call f v)
  | _ => .bad

/-- The value of an entry of a map. -/
def entryLog (call : Name → Val → Log) (t : GoTy) (v : Val) : Expr → Log
  | .call f => call f v
  | .stringCall f => asString (call f v)
  | .anyValue => match v with
    | .leaf x => .leaf (anyKind t) x
    | _ => .bad
  | .stringValue => match v with
    | .leaf x => .leaf .string x
    | _ => .bad
  | _ => .bad

/-- Runs a function to the given depth, `generator/templates/server.go.tmpl` lines 634-680. -/
def run (w : World) (st : St) : Nat → Name → Val → Log
  | 0, _, _ => .bad
  | n + 1, f, v => match lookup st f with
    | none => .bad
    | some g => match g.body, v with
      | .slice c, .list vs => .group (vs.zipIdx.map fun (v, i) => (.idx i, run w st n c v))
      | .map e, .map ks vs => .group ((ks.zip vs).map fun (k, v) =>
          (.key k, entryLog (run w st n) (match g.param with | .map _ t => t | t => t) v e))
      | .msg _, .nil => .group []
      | .msg attrs, .msg vs => .group (attrs.map fun a =>
          (.name a.key, match vs[position (fieldsOf w g.param) a.sel]? with
            | some v => attrLog (run w st n) a.fn v a.val
            | none => .bad))
      | .enum cases, .enum x => .str (match cases.find? (·.2 == x) with | some c => c.1 | none => [])
      | _, _ => .bad

end Verif.LogFn
