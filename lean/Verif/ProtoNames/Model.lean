import Verif.GoNames.Model
import Verif.Imports.Model

/-!
# The Go names that generated code uses

How the generated code refers to the Go code of the proto files: to messages, enums, their values, the
wrappers of oneof fields, fields and getters, clients and their methods.  A reference is modelled by its
qualifier, if it has one, and its name, instead of the text `qualifier.name` (and of the `*` before it).
-/

namespace Verif.ProtoNames

open GoNames (Name toPublicGoVariable goCamelCase joinUnderscore)
open Imports (Pkg Default St getAlias)

/-- A reference in a generated file. -/
structure Ref where
  qual : Option Name
  name : Name
deriving DecidableEq, Repr

/-- A message, an enum, or another declaration: the names of the messages it is nested in, the outermost first
(`ParentMessageNames`, `resolver/message.go` lines 75-83), its own, and its Go package. -/
structure Elem where
  parents : List Name
  name : Name
  pkg : Pkg
deriving DecidableEq, Repr

/-- The joined names, `generator/code_generator.go` lines 1205-1209, 1219-1223, 2267-2271 and 3677-3681. -/
def joined (names : List Name) : Name := joinUnderscore (names.map toPublicGoVariable)

/-- The qualification by the package, `generator/code_generator.go` lines 1210-1213, 1227-1230, 2272-2274 and
3685-3688. -/
def qualify (cur : Name) (st : St) (p : Pkg) (n : Name) : Ref :=
  if cur = p.path then ⟨none, n⟩ else ⟨some (getAlias st p), n⟩

/-- The special cases of `messageTypeToText`, `generator/code_generator.go` lines 1188-1199: the qualifiers of four
messages of the proto package `google.protobuf`. -/
def wellKnown (name : Name) : Option Name :=
  if name = "Any".toList then some "anypb".toList
  else if name = "Timestamp".toList then some "timestamppb".toList
  else if name = "Duration".toList then some "durationpb".toList
  else if name = "Empty".toList then some "emptypb".toList
  else none

/-- Imports every file has, `generator/code_generator.go` lines 566-569 (the others of the list are not modelled here). -/
def knownDefaults : List Default :=
  ["anypb".toList, "durationpb".toList, "emptypb".toList, "timestamppb".toList].map (fun b =>
    ⟨"google.golang.org/protobuf/types/known/".toList ++ b, [], b⟩)

/-- `messageTypeToText`, `generator/code_generator.go` lines 1186-1214, for a message that is no map entry.  `google` says
whether its proto package is `google.protobuf`. -/
def messageRef (cur : Name) (st : St) (google : Bool) (e : Elem) : Ref :=
  match (if google then wellKnown e.name else none) with
  | some q => ⟨some q, e.name⟩
  | none => qualify cur st e.pkg (joined (e.parents ++ [e.name]))

/-- `enumTypeToText`, `generator/code_generator.go` lines 1216-1231. -/
def enumRef (cur : Name) (st : St) (e : Elem) : Ref :=
  qualify cur st e.pkg (joined (e.parents ++ [e.name]))

/-- `toEnumValuePrefix` and `toEnumValueText`, `generator/code_generator.go` lines 3673-3693: the value of an enum in a message
has the name of the message as prefix. -/
def valueRef (cur : Name) (st : St) (e : Elem) (value : Name) : Ref :=
  let names := if e.parents = [] then [e.name] else e.parents
  qualify cur st e.pkg (joined names ++ '_' :: value)

/-- A field of a message and the oneof it is in. -/
structure Field where
  name : Name
  oneof : Option Name
deriving DecidableEq, Repr

/-- A message: its fields in order and the names of the messages and enums nested in it. -/
structure Msg where
  elem : Elem
  fields : List Field
  messages : List Name
  enums : List Name

/-- `IsConflict`, `resolver/oneof.go` lines 36-50. -/
def isConflict (m : Msg) (f : Name) : Bool :=
  m.messages.any (fun n => toPublicGoVariable n = toPublicGoVariable f) ||
    m.enums.any (fun n => toPublicGoVariable n = toPublicGoVariable f)

/-- `oneofTypeToText`, `generator/code_generator.go` lines 1177-1184 (the same name is built in lines 2069-2083, 2334-2344 and
2619-2623): the wrapper of a oneof field. -/
def wrapperRef (cur : Name) (st : St) (google : Bool) (m : Msg) (f : Name) : Ref :=
  let r := messageRef cur st google m.elem
  let n := r.name ++ '_' :: toPublicGoVariable f
  ⟨r.qual, if isConflict m f then n ++ ['_'] else n⟩

/-- The field of a struct, `generator/code_generator.go` lines 2295-2296, 2310-2311, 2537 and 2580; the field of a oneof is
written likewise (lines 889, 2262 and 2679). -/
def fieldName (f : Name) : Name := toPublicGoVariable f

/-- A getter, `generator/code_generator.go` lines 881, 1477, 2453 and 3481. -/
def getterName (f : Name) : Name := "Get".toList ++ toPublicGoVariable f

/-- `RequestType` of a call, `generator/code_generator.go` lines 3084-3093. -/
def requestRef (st : St) (e : Elem) : Ref := ⟨some (getAlias st e.pkg), toPublicGoVariable e.name⟩

/-- `ReturnType` of a call, `generator/code_generator.go` lines 3108-3116, the type argument of retries and timeouts
(`generator/templates/eval.go.tmpl` lines 137-145). -/
def responseRef (st : St) (e : Elem) : Ref := ⟨some (getAlias st e.pkg), e.name⟩

/-- `ClientType`, `generator/code_generator.go` lines 932-938. -/
def clientRef (st : St) (p : Pkg) (service : Name) : Ref := ⟨some (getAlias st p), service ++ "Client".toList⟩

/-- `ClientConstructor`, `generator/code_generator.go` lines 940-946. -/
def constructorRef (st : St) (p : Pkg) (service : Name) : Ref :=
  ⟨some (getAlias st p), "New".toList ++ service ++ "Client".toList⟩

/-- The method that `Caller` names, `generator/code_generator.go` lines 2834-2838. -/
def callName (method : Name) : Name := method

/-- The method of the service that is implemented, `Method.Name`, `generator/code_generator.go` lines 1645-1647. -/
def implName (method : Name) : Name := toPublicGoVariable method

end Verif.ProtoNames
