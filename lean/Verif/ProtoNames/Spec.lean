import Verif.ProtoNames.Model

/-!
# The names in the Go code of proto files

The rules of `google.golang.org/protobuf/compiler/protogen` and of `protoc-gen-go-grpc`, as published.
-/

namespace Verif.ProtoNames

open GoNames (Name goCamelCase)
open Imports (Pkg Default St)

/-- A name with the names of what it is nested in, separated by dots. -/
def dotted : List Name → Name
  | [] => []
  | [n] => n
  | n :: ns => n ++ '.' :: dotted ns

/-- The identifier of a message or an enum: the full name without the proto package, in camel case. -/
def goIdent (parents : List Name) (name : Name) : Name := goCamelCase (dotted (parents ++ [name]))

/-- The identifier of an enum value: that of the message the enum is in, or else of the enum, and the name of the value. -/
def goValue (parents : List Name) (name value : Name) : Name :=
  (if parents = [] then goIdent [] name else goCamelCase (dotted parents)) ++ '_' :: value

/-- Identifiers of a service's client, its constructor and its methods. -/
def goClient (service : Name) : Name := goCamelCase service ++ "Client".toList
def goConstructor (service : Name) : Name := "New".toList ++ goCamelCase service ++ "Client".toList
def goMethod (method : Name) : Name := goCamelCase method

/-- What a reference denotes: without qualifier a name of the file's own package, with one a name of the package that is
imported by this name. -/
def Denotes (cur : Name) (imports : List (Name × Name)) (r : Ref) (path name : Name) : Prop :=
  r.name = name ∧ match r.qual with
    | none => path = cur
    | some q => (path, q) ∈ imports

/-- The imports of the generated file: those of the runtime and those of the proto files. -/
def allImports (cur : Name) (ds : List Default) (pkgs : List Pkg) : List (Name × Name) :=
  ds.map (fun d => (d.path, d.ident)) ++ (Imports.imports cur ds pkgs).imports

/-- The Go packages of messages of the proto package `google.protobuf`. -/
def googlePath : List (Name × Name) :=
  [("Any".toList, "google.golang.org/protobuf/types/known/anypb".toList),
    ("Duration".toList, "google.golang.org/protobuf/types/known/durationpb".toList),
    ("Empty".toList, "google.golang.org/protobuf/types/known/emptypb".toList),
    ("Timestamp".toList, "google.golang.org/protobuf/types/known/timestamppb".toList)]

/-! ## Fields -/

/-- The methods every message has. -/
def reserved : List Name :=
  ["Reset".toList, "String".toList, "ProtoMessage".toList, "Marshal".toList, "Unmarshal".toList,
    "ExtensionRangeArray".toList, "ExtensionMap".toList, "Descriptor".toList]

/-- The names in use. -/
abbrev Used := Name → Bool

/-- The name can be taken: it is not in use, nor is that of the getter, if there is one. -/
def Free (u : Used) (getter : Bool) (n : Name) : Prop := u n = false ∧ (getter = true → u ("Get".toList ++ n) = false)

/-- Underscores are added to a name until it can be taken. -/
inductive Pick (u : Used) (getter : Bool) : Name → Name → Prop where
  | free {n} : Free u getter n → Pick u getter n n
  | again {n r} : ¬ Free u getter n → Pick u getter (n ++ ['_']) r → Pick u getter n r

/-- The name is taken, and that of its getter is in use if there is one. -/
def taken (u : Used) (getter : Bool) (n : Name) : Used :=
  fun x => if x = "Get".toList ++ n then getter else if x = n then true else u x

/-- What gets a name in a struct. -/
inductive Part where
  | field (name : Name)
  | oneof (name : Name)
deriving DecidableEq, Repr

def Part.name : Part → Name
  | .field n => n
  | .oneof n => n

/-- The names of fields and oneofs, in the order of the fields; a oneof follows its first field. -/
inductive Names : Used → List Name → List Field → List (Part × Name) → Prop where
  | nil {u seen} : Names u seen [] []
  | field {u seen f fs g out} : (∀ o, f.oneof = some o → o ∈ seen) → Pick u true (goCamelCase f.name) g →
      Names (taken u true g) seen fs out → Names u seen (f :: fs) ((.field f.name, g) :: out)
  | oneof {u seen f fs o g h out} : f.oneof = some o → o ∉ seen → Pick u true (goCamelCase f.name) g →
      Pick (taken u true g) false (goCamelCase o) h →
      Names (taken (taken u true g) false h) (o :: seen) fs out →
      Names u seen (f :: fs) ((.field f.name, g) :: (.oneof o, h) :: out)

/-- The names of the parts of a message. -/
def GoFields (m : Msg) (out : List (Part × Name)) : Prop := Names (fun n => decide (n ∈ reserved)) [] m.fields out

/-- Underscores are added to the name of a wrapper until no nested message or enum has it. -/
inductive Wrapper (m : Msg) : Name → Name → Prop where
  | free {n} : (∀ x ∈ m.messages ++ m.enums, goIdent (m.elem.parents ++ [m.elem.name]) x ≠ n) → Wrapper m n n
  | again {n r} : (∃ x ∈ m.messages ++ m.enums, goIdent (m.elem.parents ++ [m.elem.name]) x = n) →
      Wrapper m (n ++ ['_']) r → Wrapper m n r

/-- The wrapper of a oneof field whose struct field has the name `g`. -/
def GoWrapper (m : Msg) (g r : Name) : Prop := Wrapper m (goIdent m.elem.parents m.elem.name ++ '_' :: g) r

/-! ## Conditions -/

/-- A proto name: not empty, and its first character is a letter or an underscore. -/
def isIdent : Name → Bool
  | [] => false
  | c :: _ => GoNames.isLower c || GoNames.isUpper c || c == '_'

/-- The name does not start with a lower case letter. -/
def capital (n : Name) : Prop := GoNames.nextLower n = false

/-- The parts of a message, in the order they get names. -/
def parts : List Name → List Field → List Part
  | _, [] => []
  | seen, f :: fs => match f.oneof with
    | none => .field f.name :: parts seen fs
    | some o => if o ∈ seen then .field f.name :: parts seen fs
      else .field f.name :: .oneof o :: parts (o :: seen) fs

end Verif.ProtoNames
