/-!
# Arguments in expressions: reading and `has`

Models the field types the generated server gives to arguments, variables and environments (`grpc/federation/cel.go` lines 70-151,
`generator/templates/server.go.tmpl` lines 266-305): how the Go struct of arguments is read by `$.name`, what `has($.name)` is, and what names
are known.

Simplified: values of the struct are given by what `reflect` tells of them. That cel-go uses `GetFrom` for `$.name` and `IsSet` for
`has($.name)` is taken from its documentation. The registry of proto messages is a function.
-/

namespace Verif.HasArg

abbrev Name := List Char

/-- Values of fields of Go structs. `none` is nil; `float` has the bits of the number. -/
inductive GV where
  | bool (b : Bool)
  | num (n : Int)
  | float (bits : Nat)
  | str (s : Name)
  | bytes (b : Option (List Nat))
  | list (l : Option (List GV))
  | map (m : Option (List (GV × GV)))
  /-- a pointer: messages and optional fields -/
  | ptr (p : Option Nat)
deriving Repr

/-- `reflect.Value.IsZero`. -/
def isZero : GV → Bool
  | .bool b => !b
  | .num n => n = 0
  | .float bits => bits = 0
  | .str s => s = []
  | .bytes b => b.isNone
  | .list l => l.isNone
  | .map m => m.isNone
  | .ptr p => p.isNone

/-- What `$` may be in Go. -/
inductive Obj where
  | struct (fields : List (Name × GV))
  | pointer (fields : List (Name × GV))
  | nilPointer
  | other

/-- The fields of the struct, `grpc/federation/cel.go` lines 122-128 and 132-138: the kind of what a nil pointer points to is not a struct. -/
def fieldsOf : Obj → Option (List (Name × GV))
  | .struct fs => some fs
  | .pointer fs => some fs
  | .nilPointer => none
  | .other => none

/-- What a call gives. -/
inductive Res (α : Type) where
  | ok (a : α)
  | error
  | panic
deriving Repr

/-- `reflect.Value.FieldByName`. -/
def fieldByName (fs : List (Name × GV)) (n : Name) : Option GV := (fs.find? (fun f => f.1 = n)).map (·.2)

/-- `isSet`, `grpc/federation/cel.go` lines 121-130. `IsZero` of no value panics. -/
def isSet (o : Obj) (n : Name) : Res Bool :=
  match fieldsOf o with
  | none => .ok false
  | some fs =>
    match fieldByName fs n with
    | none => .panic
    | some v => .ok !(isZero v)

/-- `getFrom`, `grpc/federation/cel.go` lines 131-141. -/
def getFrom (o : Obj) (n : Name) : Res GV :=
  match fieldsOf o with
  | none => .error
  | some fs =>
    match fieldByName fs n with
    | none => .panic
    | some v => .ok v

/-- A field type: the CEL type and the name of the Go field, `grpc/federation/cel.go` lines 142-150. -/
structure FieldType (T : Type) where
  type : T
  goName : Name

/-- A `CELTypeHelper`: what the registry of messages knows, and the map of the generated code, in which a key is there once. -/
structure Helper (T : Type) where
  registry : Name → Option (List (Name × FieldType T))
  structs : List (Name × List (Name × FieldType T))

variable {T : Type}

/-- A look-up in a Go map. -/
def get {α : Type} (m : List (Name × α)) (k : Name) : Option α := (m.find? (fun f => f.1 = k)).map (·.2)

/-- `FindStructFieldType`, `grpc/federation/cel.go` lines 101-114. -/
def findField (h : Helper T) (struct field : Name) : Option (FieldType T) :=
  match (h.registry struct).bind (fun fs => get fs field) with
  | some f => some f
  | none =>
    match get h.structs struct with
    | none => none
    | some fs => get fs field

def insertName (n : Name) : List Name → List Name
  | [] => [n]
  | m :: ms => if n ≤ m then n :: m :: ms else m :: insertName n ms

/-- `sort.Strings`. -/
def sortNames : List Name → List Name
  | [] => []
  | n :: ns => insertName n (sortNames ns)

/-- `FindStructFieldNames`, `grpc/federation/cel.go` lines 82-99. -/
def fieldNames (h : Helper T) (struct : Name) : Option (List Name) :=
  match h.registry struct with
  | some fs => some (fs.map (·.1))
  | none =>
    match get h.structs struct with
    | none => none
    | some fs => some (sortNames (fs.map (·.1)))

/-- `FindStructType`, `grpc/federation/cel.go` lines 70-80. -/
def findStruct (h : Helper T) (struct : Name) : Bool :=
  match h.registry struct with
  | some _ => true
  | none => (get h.structs struct).isSome

/-- `has($.field)` and `$.field`: the type is looked up under the name of the struct, then the Go field is read. `none` if the expression is
rejected. -/
def evalHas (h : Helper T) (struct : Name) (o : Obj) (field : Name) : Option (Res Bool) := (findField h struct field).map (fun f => isSet o f.goName)
def evalRead (h : Helper T) (struct : Name) (o : Obj) (field : Name) : Option (Res GV) := (findField h struct field).map (fun f => getFrom o f.goName)

end Verif.HasArg
