import Verif.GoNames.Model

/-!
# Functions of plugins

Models how the declared functions of a plugin are resolved (`resolvePluginMethod`, `resolvePluginGlobalFunction`,
`resolvePluginFunctionArgumentsAndReturn`, `resolvePluginFunctionArguments`, `resolvePluginType`, `resolver/resolver.go`
lines 874-997) and the Go interface and handler generated from them (`generator/templates/plugin.go.tmpl` with
`generator/code_generator.go` lines 103-153, 169-229, 249-315 and 1116-1175).

Simplifications: that a type is missing in the option is the constructor `nil` of the declared types; names of messages and
enums are resolved by a table.  Reading a field of a missing value is a crash.
-/

namespace Verif.PlugTy
open Verif.GoNames

/-- `TypeKind`, `proto/grpc/federation/federation.proto` lines 156-171, without `UNKNOWN`. -/
inductive Kind where
  | string | bool | int64 | uint64 | double | duration
deriving DecidableEq

/-- `CELType`, `proto/grpc/federation/federation.proto` lines 613-634; `nil` is a missing one, `unset` one with nothing in
it and `unknown` the kind `UNKNOWN`. -/
inductive Decl where
  | nil
  | unset
  | unknown
  | kind (k : Kind)
  | rep (t : Decl)
  | map (k v : Decl)
  | msg (n : Name)
  | enum (n : Name)
deriving DecidableEq

/-- A resolved type; a message or an enum may be missing.  `resolver/message.go` lines 22-30 for maps. -/
inductive Ty where
  | kind (k : Kind) (rep : Bool)
  | map (k v : Ty)
  | msg (n : Option Name) (rep : Bool)
  | enum (n : Option Name) (rep : Bool)
deriving DecidableEq

inductive Res (α : Type) where
  | ok (a : α)
  | err
  | panic
deriving DecidableEq

/-- The messages and enums that can be found, and the names whose package can not be found. -/
structure World where
  msgs : Name → Bool
  enums : Name → Bool
  noPkg : Name → Bool

/-- `resolveType` for messages, `resolver/resolver.go` lines 3329-3345 and 3364-3373: that a message is not in its package
is an error of the context, and the message is missing. -/
def World.msg (w : World) (n : Name) (rep : Bool) : Res Ty :=
  if w.noPkg n then .err else if w.msgs n then .ok (.msg (some n) rep) else .ok (.msg none rep)

/-- `resolveType` for enums, `resolver/resolver.go` lines 3346-3373. -/
def World.enum (w : World) (n : Name) (rep : Bool) : Res Ty :=
  if w.noPkg n then .err else if w.enums n then .ok (.enum (some n) rep) else .ok (.enum none rep)

/-- `resolvePluginType`, `resolver/resolver.go` lines 934-997.  The context of lines 990 and 993 is a new one, so that its
errors are not reported. -/
def resolveType (w : World) (rep : Bool) : Decl → Res Ty
  | .nil => .panic
  | .unset => .err
  | .unknown => .err
  | .kind k => .ok (.kind k rep)
  | .rep t => resolveType w true t
  | .map k v =>
    match resolveType w false k with
    | .ok k =>
      match resolveType w false v with
      | .ok v => .ok (.map k v)
      | .err => .err
      | .panic => .panic
    | .err => .err
    | .panic => .panic
  | .msg n => w.msg n rep
  | .enum n => w.enum n rep

/-- `CELFunction` of the option; `receiver` is the message of `types` for a method. -/
structure FnDecl where
  name : Name
  receiver : Option Name
  args : List Decl
  ret : Decl
deriving DecidableEq

structure Fn where
  name : Name
  receiver : Option Name
  args : List Ty
  ret : Option Ty
deriving DecidableEq

/-- `resolvePluginFunctionArguments`, `resolver/resolver.go` lines 916-932: the types and the number of errors. -/
def resolveArgs (w : World) : List Decl → Res (List Ty × Nat)
  | [] => .ok ([], 0)
  | d :: ds =>
    match resolveType w false d with
    | .panic => .panic
    | .err =>
      match resolveArgs w ds with
      | .ok (ts, n) => .ok (ts, n + 1)
      | .err => .err
      | .panic => .panic
    | .ok t =>
      match resolveArgs w ds with
      | .ok (ts, n) => .ok (t :: ts, n)
      | .err => .err
      | .panic => .panic

/-- The return type, `resolver/resolver.go` lines 901-913. -/
def resolveRet (w : World) (d : Decl) : Res (Option Ty × Nat) :=
  if d = .nil then .ok (none, 0)
  else
    match resolveType w false d with
    | .ok t => .ok (some t, 0)
    | .err => .ok (none, 1)
    | .panic => .panic

/-- The argument of the receiver, `resolver/resolver.go` lines 853-864 and 874-885, with `resolveMessageByName`, lines
1113-1127: names of nested messages are found without the package.  A message that is not in its package is missing, and its
name is read on line 884. -/
def resolveReceiver (w : World) : Option Name → Res (List Ty × Nat)
  | none => .ok ([], 0)
  | some n => if w.msgs n then .ok ([.msg (some n) false], 0) else if w.noPkg n then .err else .panic

/-- `resolvePluginMethod` and `resolvePluginGlobalFunction`, `resolver/resolver.go` lines 874-897, with the number of
errors. -/
def resolveFn (w : World) (f : FnDecl) : Res (Fn × Nat) :=
  match resolveReceiver w f.receiver with
  | .err => .err
  | .panic => .panic
  | .ok (recv, a) =>
    match resolveArgs w f.args with
    | .err => .err
    | .panic => .panic
    | .ok (args, b) =>
      match resolveRet w f.ret with
      | .err => .err
      | .panic => .panic
      | .ok (ret, c) => .ok (⟨f.name, f.receiver, recv ++ args, ret⟩, a + b + c)

/-! ### Generated code -/

/-- Go types: a base type, a pointer to the type of a message, the type of an enum, slices, maps and `any`. -/
inductive Go where
  | base (k : Kind)
  | int32
  | ptr (n : Name)
  | enum (n : Name)
  | slice (t : Go)
  | map (k v : Go)
  | any
deriving DecidableEq

def sliceIf (rep : Bool) (t : Go) : Go := if rep then .slice t else t

/-- `toTypeText`, `generator/code_generator.go` lines 1116-1175; `none` if it reads a missing message or enum. -/
def typeText : Ty → Option Go
  | .kind k r => some (sliceIf r (.base k))
  | .map k v =>
    match typeText k, typeText v with
    | some k, some v => some (.map k v)
    | _, _ => none
  | .msg n r => n.map fun n => sliceIf r (.ptr n)
  | .enum n r => n.map fun n => sliceIf r (.enum n)

/-- The text of the return type; a missing one is `any`, `generator/code_generator.go` lines 1117-1119. -/
def retText : Option Ty → Option Go
  | none => some .any
  | some t => typeText t

/-- A converter: the function for a base type, or a generic one with its type argument; each for one value or a list. -/
inductive Conv where
  | base (k : Kind) (list : Bool)
  | int32 (list : Bool)
  | enum (t : Go) (list : Bool)
  | message (t : Go) (list : Bool)
deriving DecidableEq

/-- `CELFunctionArgument.Converter`, `generator/code_generator.go` lines 169-229; a duration is a message there, and a map
is a message that is no list. -/
def argConv : Ty → Option Conv
  | .kind .duration r => some (.message (.base .duration) r)
  | .kind k r => some (.base k r)
  | .map k v => (typeText (.map k v)).map fun t => .message t false
  | .msg n r => (typeText (.msg n false)).map fun t => .message t r
  | .enum n r => (typeText (.enum n false)).map fun t => .enum t r

/-- `CELFunctionReturn.Converter`, `generator/code_generator.go` lines 249-301; it reads the return type at once. -/
def retConv : Option Ty → Option Conv
  | none => none
  | some (.kind .duration r) => some (.message (.base .duration) r)
  | some (.kind k r) => some (.base k r)
  | some (.map k v) => (typeText (.map k v)).map fun t => .message t false
  | some (.msg n r) => (typeText (.msg n false)).map fun t => .message t r
  | some (.enum _ r) => some (.int32 r)

/-- Is the type that of a message (`proto.Message`)?  Those are the pointers to messages, and the one to a duration. -/
def Go.isMessage : Go → Bool
  | .ptr _ => true
  | .base .duration => true
  | _ => false

/-- Is the type one with the underlying type `int32`? -/
def Go.isEnum : Go → Bool
  | .enum _ => true
  | .int32 => true
  | _ => false

/-- The type a converter gives or takes, `grpc/federation/cel_plugin.go` lines 38-331; `none` if its type argument is not
allowed. -/
def Conv.type : Conv → Option Go
  | .base k l => some (sliceIf l (.base k))
  | .int32 l => some (sliceIf l .int32)
  | .enum t l => if t.isEnum then some (sliceIf l t) else none
  | .message t l => if t.isMessage then some (sliceIf l t) else none

/-- The line of the interface, `generator/templates/plugin.go.tmpl` line 7; `none` if the generator crashes. -/
def signature (f : Fn) : Option (List Go × Go) :=
  match f.args.mapM typeText, retText f.ret with
  | some as, some r => some (as, r)
  | _, _ => none

/-- Is the code of the handler written?  `generator/templates/plugin.go.tmpl` lines 71-81. -/
def generates (f : Fn) : Bool :=
  (signature f).isSome && f.args.all (fun t => (argConv t).isSome) && (retConv f.ret).isSome

/-- Does the Go compiler accept the handler?  What the converters give is passed to the function, and what it returns to
the converter. -/
def compiles (f : Fn) : Bool :=
  generates f && f.args.all (fun t => decide ((argConv t).bind Conv.type = typeText t)) &&
    decide ((retConv f.ret).bind Conv.type = retText f.ret)

/-! ### Names -/

def digits (n : Nat) : Name := Nat.toDigits 10 n

/-- `PluginFunctions`, `generator/code_generator.go` lines 303-315: each name with the number of earlier functions of that
name. -/
def overloads (seen : List Name) : List Name → List (Name × Nat)
  | [] => []
  | n :: ns => (n, (seen.filter (· == n)).length) :: overloads (n :: seen) ns

/-- The name with the number of the overload, `generator/code_generator.go` lines 104-107. -/
def funcName (p : Name × Nat) : Name := if p.2 ≠ 0 then p.1 ++ digits (p.2 + 1) else p.1

/-- `GoName` of a function without receiver, `generator/code_generator.go` lines 103-112. -/
def goName (p : Name × Nat) : Name := fqdnToGoName (funcName p)

end Verif.PlugTy
