import Verif.SrvTy.Model

/-!
# Oneofs used by their name

`m.o` in an expression, where `o` is the name of a oneof of the message `m`: `FindStructFieldType` and `IsSameType` in the
generator (`resolver/cel.go` lines 50-81, `resolver/oneof.go` lines 8-34), what is generated for the oneofs of the messages
of a service (`OneofTypes`, `generator/code_generator.go` lines 864-899, and `generator/templates/server.go.tmpl` lines
266-305) and what the server does with it (`FindStructFieldType` and `NewOneofSelectorFieldType`, `grpc/federation/cel.go`
lines 101-114 and 153-194).

Names of Go types, fields and getters are left out: a wrapper type is the name of its field, and protoc-gen-go is taken to
use the same names. cel-go and reflection are trusted.
-/

namespace Verif.OneofSel

open Verif.CelTy Verif.SrvTy

/-- `resolver.Field` (`resolver/types.go`): a field, and the oneof it belongs to. -/
structure Field where
  name : String
  ty : Ty
  oneof : Option String
deriving DecidableEq, Repr

/-- A oneof as a message declares it. `synthetic`: protoc's oneof for a single `optional` field, for which
protoc-gen-go has no wrapper type. -/
structure Oneof where
  name : String
  synthetic : Bool
deriving DecidableEq, Repr

/-- `resolver.Message` (`resolver/types.go`). Argument messages have the fields of the request with their oneofs
(`resolver/resolver.go` line 3625), but declare none. -/
structure Msg where
  fqdn : Name
  fields : List Field
  oneofs : List Oneof
deriving DecidableEq, Repr

/-- `oneof.Fields`: every field with a `OneofIndex` is added to its oneof (`resolveField`, `resolver/resolver.go` lines
3304-3309). -/
def oneofFields (m : Msg) (o : String) : List Field := m.fields.filter (fun f => f.oneof == some o)

/-- The comparison of two types, `resolver/oneof.go` lines 18-30: kinds, then messages and enums. -/
def sameTy : Ty → Ty → Bool
  | .scalar k _, .scalar k' _ => k == k'
  | .msg n _, .msg n' _ => n == n'
  | .enum n _, .enum n' _ => n == n'
  | _, _ => false

/-- The loop of `IsSameType`, `resolver/oneof.go` lines 13-32: every field is compared with the one before. -/
def sameLoop : Ty → List Field → Bool
  | _, [] => true
  | prev, f :: fs => sameTy prev f.ty && sameLoop f.ty fs

/-- `IsSameType`, `resolver/oneof.go` lines 8-34: the first field is compared with itself. -/
def isSameType : List Field → Bool
  | [] => false
  | f :: fs => sameLoop f.ty (f :: fs)

/-- `Message.Oneof`, `resolver/message.go` lines 397-412. -/
def findOneof (m : Msg) (o : String) : Option (List Field) :=
  if m.fields.any (fun f => f.oneof == some o) then some (oneofFields m o) else none

/-- `FindStructFieldType` of the generator, `resolver/cel.go` lines 50-81, for a message the resolver knows: the type of the
field `x`, or of the oneof `x`. `none`: the field is undefined, an error. -/
def genField (m : Msg) (x : String) : Option CTy :=
  match m.fields.find? (fun f => f.name == x) with
  | some f => some (fieldCEL f.ty)
  | none => match findOneof m x with
    | none => none
    | some [] => none
    | some (f :: fs) => if isSameType (f :: fs) then some (toCEL true f.ty) else none

/-- Text of the zero value of a field of a oneof, `toMakeZeroValue`, `generator/code_generator.go` lines 1063-1070: for
bytes `*Msg_Field(nil)` (line 1066), and `(*Msg_Field)(nil)` (line 1069) for all other types. -/
inductive WZero where
  | deref (field : String)
  | ptr (field : String)
deriving DecidableEq, Repr

def wrapperZero (f : Field) : WZero := match f.ty with
  | .scalar .bytes _ => .deref f.name
  | _ => .ptr f.name

/-- `OneofType`, `generator/code_generator.go` lines 839-847. -/
structure Entry where
  fqdn : Name
  name : String
  synthetic : Bool
  typ : Option CTy
  zeros : List WZero
  getters : List String
  ret : Zero
deriving DecidableEq, Repr

/-- The body of the loops of `OneofTypes`, `generator/code_generator.go` lines 868-896. -/
def entry (m : Msg) (o : Oneof) : Option Entry :=
  if !isSameType (oneofFields m o.name) then none
  else match oneofFields m o.name with
    | [] => none
    | f :: fs => some {
        fqdn := m.fqdn, name := o.name, synthetic := o.synthetic, typ := declare f.ty,
        zeros := (f :: fs).map wrapperZero, getters := (f :: fs).map (·.name), ret := zero f.ty }

/-- `OneofTypes`, `generator/code_generator.go` lines 864-899, for the messages of a service (`resolver/resolver.go` lines
3630-3645: the response messages of its methods, the messages of its variables, and those they are made from). -/
def entries (S : List Msg) : List Entry := S.flatMap (fun m => m.oneofs.filterMap (entry m))

/-- Whether the Go compiler accepts one entry of the literal (`generator/templates/server.go.tmpl` lines 280-289). `nil` is
no value of the struct a wrapper type is, and synthetic oneofs have no wrapper types. -/
def validEntry (e : Entry) : Bool :=
  e.typ.isSome && e.ret.typ.isSome && !e.synthetic && e.zeros.all (fun z => match z with
    | .deref _ => false
    | .ptr _ => true)

def nodup : List Name → Bool
  | [] => true
  | n :: ns => !ns.contains n && nodup ns

/-- Whether the Go compiler accepts the literal, `generator/templates/server.go.tmpl` lines 266-289: every entry has the
full name of its message as its key, and the constant keys of a map literal must differ. -/
def compiles (S : List Msg) : Bool := nodup ((entries S).map (·.fqdn)) && (entries S).all validEntry

/-- What an expression finds for a name: a field of the descriptor or an entry. -/
inductive Found where
  | field (f : Field)
  | oneof (e : Entry)
deriving DecidableEq, Repr

/-- `FindStructFieldType` of the server, `grpc/federation/cel.go` lines 101-114: `R` are the messages with a descriptor, `S`
those of the service. -/
def srvField (R S : List Msg) (n : Name) (x : String) : Option Found :=
  match (R.find? (fun m => m.fqdn == n)).bind (fun m => m.fields.find? (fun f => f.name == x)) with
  | some f => some (.field f)
  | none => match (entries S).find? (fun e => e.fqdn == n && e.name == x) with
    | some e => some (.oneof e)
    | none => none

/-- A message at run time: the field each oneof holds, with its value, if any. -/
structure Value (V : Type) where
  set : String → Option (String × V)

/-- `Get<Field>` of protoc-gen-go, for a field of the oneof `o`. -/
def getter {V : Type} (zeroOf : String → V) (v : Value V) (o field : String) : V :=
  match v.set o with
  | some (f, x) => if f = field then x else zeroOf field
  | none => zeroOf field

/-- The loop over the wrapper types, `grpc/federation/cel.go` lines 172-184. -/
def getLoop {V : Type} (zeroOf : String → V) (v : Value V) (o impl : String) (dflt : V) : List WZero → List String → V
  | .ptr w :: zs, g :: gs => if impl = w then getter zeroOf v o g else getLoop zeroOf v o impl dflt zs gs
  | .deref w :: zs, g :: gs => if impl = w then getter zeroOf v o g else getLoop zeroOf v o impl dflt zs gs
  | _, _ => dflt

/-- `GetFrom` of `NewOneofSelectorFieldType`, `grpc/federation/cel.go` lines 157-185. `none` is an evaluation error (lines
168-171). `dflt` is `zeroValue`. -/
def getFrom {V : Type} (zeroOf : String → V) (dflt : V) (e : Entry) (v : Value V) : Option V :=
  match v.set e.name with
  | none => none
  | some (f, _) => some (getLoop zeroOf v e.name f dflt e.zeros e.getters)

/-- `IsSet`, `grpc/federation/cel.go` lines 154-156: what `has(m.o)` is. -/
def isSet {V : Type} (_ : Entry) (_ : Value V) : Bool := false

end Verif.OneofSel
