/-!
# How arguments and variables are declared to expressions

The arguments of a message (`$`), the environment variables (`grpc.federation.env`) and the service variables
(`grpc.federation.var`) are messages that the resolver makes up. Models how they are turned into descriptors and
registered: `messageArgumentFileDescriptor`, `envVarsToMessage`, `svcVarsToMessage`, `dynamicMsgFileDescriptor`,
`messageToDescriptor`, `toMapEntryName` (`resolver/resolver.go` lines 4887-5061), names of map variables in
`resolveEnvVar` (lines 2003-2011 of `resolver/resolver.go`), `RegisterFiles`, `registerFileDeps` and
`FindStructFieldType` (`resolver/cel.go` lines 50-62 and 143-191), and the visits of a message in
`resolveMessageArgumentRecursive` (`resolver/resolver.go` lines 3647-3715).

protobuf-go (`protodesc.NewFile`) is trusted to check descriptors as `valid` below does. Names of types are
absolute here: the code leaves out the leading dot, which only matters for packages nested in the private package.
-/

namespace Verif.Descr

/-- Names of fields and messages, as characters. -/
abbrev Ident := List Char

/-- `resolver.Type`. `map e k v` has the name `e` of its map entry (empty if it was made by `NewMapType`). -/
inductive FTy where
  | null
  | scalar (kind : Nat) (repeated : Bool)
  | named (isEnum : Bool) (n : String) (repeated : Bool)
  | map (entry : Ident) (k v : FTy)
deriving DecidableEq, Repr

structure Field where
  name : Ident
  ty : FTy
deriving DecidableEq, Repr

/-- The type of a field in a descriptor. -/
inductive DTy where
  /-- kind 0 without a type name, what `NullType` becomes -/
  | unset
  | scalar (kind : Nat) (repeated : Bool)
  | named (n : String) (repeated : Bool)
  /-- a nested map entry with this name, key and value -/
  | entry (n : Ident) (k v : DTy)
deriving DecidableEq, Repr

/-- `FieldDescriptorProto`. -/
structure DField where
  name : Ident
  number : Nat
  ty : DTy
deriving DecidableEq, Repr

/-- `FileDescriptorProto` of one made-up message. -/
structure DFile where
  name : String
  pkg : String
  msg : Ident
  deps : List String
  fields : List DField
deriving DecidableEq, Repr

/-- A file of the schema: its imports and the types importing it makes visible (its own, and those of its public
imports). -/
structure SFile where
  name : String
  deps : List String
  exports : List String

/-! ## Descriptors -/

def upper (c : Char) : Char := c.toUpper

/-- The loop of `toMapEntryName`. -/
def entryLoop : Bool → List Char → List Char
  | _, [] => []
  | up, c :: cs =>
    if c = '_' then entryLoop true cs
    else if up then upper c :: entryLoop false cs
    else c :: entryLoop false cs

/-- `toMapEntryName`, `resolver/resolver.go` lines 5045-5061. -/
def toMapEntryName (s : Ident) : Ident := entryLoop true s ++ "Entry".toList

/-- The type of one field in `messageToDescriptor`, `resolver/resolver.go` lines 5006-5035. Key and value of a map
entry are the fields "key" and "value" of the entry. -/
def toDTy : Ident → FTy → DTy
  | _, .null => .unset
  | _, .scalar k r => .scalar k r
  | _, .named _ n r => .named n r
  | f, .map e k v => .entry (if e = [] then toMapEntryName f else e) (toDTy "key".toList k) (toDTy "value".toList v)

/-- The fields of `messageToDescriptor`, `resolver/resolver.go` lines 5006-5036: numbered from 1. -/
def toFields : Nat → List Field → List DField
  | _, [] => []
  | i, f :: fs => ⟨f.name, i + 1, toDTy f.name f.ty⟩ :: toFields (i + 1) fs

def privateFile : String := "grpc/federation/private.proto"
def timeFile : String := "grpc/federation/time.proto"
def durationFile : String := "google/protobuf/duration.proto"

/-- Imports that are added unless the file has them. -/
def addDep (own : List String) (d : String) : List String := if own.contains d then [] else [d]

/-- The imports of `messageArgumentFileDescriptor`, `resolver/resolver.go` lines 4896-4914. -/
def argDeps (f : SFile) : List String :=
  f.deps ++ [f.name] ++ addDep f.deps privateFile ++ addDep f.deps timeFile

/-- The imports of `dynamicMsgFileDescriptor`, `resolver/resolver.go` lines 4970-4988. -/
def dynDeps (f : SFile) : List String :=
  f.deps ++ [f.name] ++ addDep f.deps privateFile ++ addDep f.deps durationFile

/-! ## Registration -/

/-- What protobuf-go requires of the name of the map entry of a field (`MapEntryName`; the comment of
`toMapEntryName`, `resolver/resolver.go` lines 5040-5044, refers to it): the same loop. -/
def requiredEntry (s : Ident) : Ident := entryLoop true s ++ "Entry".toList

/-- Kinds of map keys: integers, bool and string (`descriptor.proto`). -/
def keyKinds : List Nat := [3, 4, 5, 6, 7, 8, 9, 13, 15, 16, 17, 18]

/-- The files that are registered, and the types they export. -/
abbrev Files := List SFile

def exported (R : Files) (deps : List String) (n : String) : Bool :=
  R.any (fun f => deps.contains f.name && f.exports.contains n)

/-- A type that is no map. -/
def validSingle (R : Files) (deps : List String) : DTy → Bool
  | .scalar _ r => !r
  | .named n r => !r && exported R deps n
  | _ => false

/-- The checks of one field: types are exported by an imported file, map entries have the required name, a key of a
valid kind, and a value that is no list and no map. -/
def validTy (R : Files) (deps : List String) (f : Ident) : DTy → Bool
  | .unset => false
  | .scalar _ _ => true
  | .named n _ => exported R deps n
  | .entry e k v => e == requiredEntry f && (match k with
      | .scalar kind r => !r && keyKinds.contains kind
      | _ => false) && validSingle R deps v

/-- No name twice. -/
def distinct : List Ident → Bool
  | [] => true
  | a :: l => !l.contains a && distinct l

def distinctDeps : List String → Bool
  | [] => true
  | a :: l => !l.contains a && distinctDeps l

/-- `protodesc.NewFile`: all imports are registered and none is repeated, names and numbers of fields are distinct,
numbers are positive, and all fields are valid. -/
def valid (R : Files) (d : DFile) : Bool :=
  d.deps.all (fun n => R.any (fun f => f.name == n)) && distinctDeps d.deps &&
  distinct (d.fields.map (·.name)) && decide (d.fields.map (·.number)).Nodup &&
  d.fields.all (fun f => 0 < f.number && validTy R d.deps f.name f.ty)

/-- The made-up files registered so far. -/
abbrev Reg := List DFile

/-- `registerFileDeps` for a made-up file, `resolver/cel.go` lines 159-191: a name that was registered before is
skipped. `none` is an error. (Two made-up messages of the same full name are not modelled.) -/
def register (R : Files) (reg : Reg) (d : DFile) : Option Reg :=
  if reg.any (fun e => e.name == d.name) then some reg
  else if valid R d then some (reg ++ [d]) else none

/-- `Registry.FindStructFieldType` of cel-go for the message `msg` of package `pkg`. -/
def findField (reg : Reg) (pkg : String) (msg f : Ident) : Option DField :=
  match reg.find? (fun d => d.pkg == pkg && d.msg == msg) with
  | none => none
  | some d => d.fields.find? (fun x => x.name == f)

/-- What selecting a field of a made-up message gives: its type, an error, or a nil dereference. -/
inductive Sel where
  | found (t : DTy)
  | undefined
  | panics
deriving DecidableEq, Repr

/-- `FindStructFieldType`, `resolver/cel.go` lines 50-62: `known` are the fields of the message in `messageMap`.
Line 58 dereferences the type that was found in the registry. -/
def selectField (reg : Reg) (pkg : String) (msg : Ident) (known : List Field) (f : Ident) : Sel :=
  match findField reg pkg msg f with
  | some d => .found d.ty
  | none => match known.find? (fun x => x.name == f) with
    | some ⟨_, .named true _ _⟩ => .panics
    | _ => .undefined

/-! ## The made-up messages -/

/-- `strings.Replace(name, ".", "_", -1)`. -/
def underscores (s : Ident) : Ident := s.map (fun c => if c = '.' then '_' else c)

def privatePkg : String := "grpc.federation.private"

/-- The file of the arguments of a message with the fields `fs`, `messageArgumentFileDescriptor`,
`resolver/resolver.go` lines 4893-4923, `newMessageArgument`, `resolver/message.go` lines 63-73, and
`PrivatePackageName`, `resolver/file.go` lines 95-97. `pkg` is the package of the file, `msg` the name of the message
(names of nested messages are joined by underscores). -/
def argFile (f : SFile) (pkg : String) (msg : Ident) (fs : List Field) : DFile where
  name := String.ofList (underscores ((privatePkg ++ "." ++ pkg ++ ".").toList ++ msg ++ "Argument".toList))
  pkg := privatePkg ++ "." ++ pkg
  msg := msg ++ "Argument".toList
  deps := argDeps f
  fields := toFields 0 fs

/-- The file of the environment variables as a message sees them: `envVarsToMessage`, `dynamicMsgFileDescriptor` and
`createMessageCELEnv`, `resolver/resolver.go` lines 4925-4941, 4967-4997 and 4476-4487; `fqdn` is the full name of the
message. -/
def envFile (f : SFile) (pkg : String) (fqdn : Ident) (fs : List Field) : DFile where
  name := String.ofList (underscores (fqdn ++ "Env".toList))
  pkg := privatePkg ++ "." ++ pkg
  msg := underscores fqdn ++ "Env".toList
  deps := dynDeps f
  fields := toFields 0 fs

/-- The file of the service variables: `svcVarsToMessage`, `resolver/resolver.go` lines 4943-4965 and 4488-4495. -/
def varFile (f : SFile) (pkg : String) (fqdn : Ident) (fs : List Field) : DFile where
  name := String.ofList (underscores (fqdn ++ "Variable".toList))
  pkg := privatePkg ++ "." ++ pkg
  msg := underscores fqdn ++ "Variable".toList
  deps := dynDeps f
  fields := toFields 0 fs

/-- `cases.Title(language.Und).String(name)` of golang.org/x/text for names of variables (`namePattern`,
`resolver/resolver.go` line 1440: one word of letters, digits and underscores): the first letter is upper case, the
others are lower case. -/
def title : Ident → Ident
  | [] => []
  | c :: cs => c.toUpper :: cs.map Char.toLower

/-- The field of an environment variable, `resolveEnvVar` and `resolveEnvVarWithField`, `resolver/resolver.go` lines
1962-2029: a map that was declared with `var` gets the name of line 2005. -/
def envField (name : Ident) (ty : FTy) : Field := match ty with
  | .map [] k v => ⟨name, .map (title name ++ "Entry".toList) k v⟩
  | t => ⟨name, t⟩

/-! ## Visits -/

/-- One visit of a message by a caller that passes the arguments `new` which no caller has passed before
(`resolveMessageArgumentFields`, see `Verif.Args`): the fields are appended, the file is registered
(`resolver/resolver.go` lines 3707 and 3656-3657). -/
structure VState where
  fields : List Field
  reg : Reg
deriving DecidableEq, Repr

def visit (R : Files) (f : SFile) (pkg : String) (msg : Ident) (s : VState) (new : List Field) : Option VState :=
  let fields := s.fields ++ new
  match register R s.reg (argFile f pkg msg fields) with
  | none => none
  | some reg => some ⟨fields, reg⟩

/-- `$.f` in an expression of the message after a visit. -/
def argument (s : VState) (pkg : String) (msg f : Ident) : Sel :=
  selectField s.reg (privatePkg ++ "." ++ pkg) (msg ++ "Argument".toList) s.fields f

end Verif.Descr
