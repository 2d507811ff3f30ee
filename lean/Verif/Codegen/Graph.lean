import Verif.TypeConv.Model

/-!
# The request of code generation plugins: objects and references

Models how `grpc/federation/generator/encode.go` flattens the resolved objects into maps by identifier (`toFile` lines
71-103, `toService` 146-172, `toMessage` 308-339, `toEnum` 382-400, `toField` 515-531, `toOneof` 584-600, `toMethod`
614-630, `toCELPlugin` 662-678, `toMessageDependencyGraph` 781-794, `toVariableDefinition` 839-859,
`toVariableDefinitionGroup` 861-883; the identifiers lines 1252-1342), and how `decode.go` builds objects from them
again (`toFile` 95-142, `toMessage` 421-474 and so on).

An object has a kind, an identifier, data and references in order. All these functions have the same shape: look up the
identifier, record a new entry, follow the references. A reference of the encoder either encodes the object or only emits
its identifier (`toEnumRule` line 408, `toEnumValueAlias` 460-463, `toIterator` 966-974). The data of an object is copied;
its encoding is modelled in `Verif.Codegen.Expr`.

Simplified: the recursion has a bound in the model; the theorems give one that suffices. Nodes of dependency graphs are
part of the data of their graph. `toCELPlugin` encodes its functions before it records its entry (lines 670-676), so it may
build the same entry twice; the model records it first, as for the other kinds.
-/

namespace Verif.Codegen
open Verif.TypeConv (visit)

abbrev Name := List Char

/-- The maps of `plugin.Reference`. -/
inductive Kind where
  | file | enum | enumValue | message | field | oneof | service | method | celPlugin | graph | varDef | group
deriving DecidableEq, Repr

abbrev Key := Kind × Name

/-- A reference: the object and whether the encoder encodes it. -/
structure Ref where
  to : Nat
  encodes : Bool
deriving DecidableEq, Repr

structure Obj (D : Type) where
  kind : Kind
  id : Name
  data : D
  refs : List Ref

/-- A heap of resolved objects. -/
abbrev Heap (D : Type) := Nat → Obj D

def keyOf {D : Type} (H : Heap D) (p : Nat) : Key := ((H p).kind, (H p).id)

/-- An entry of the maps, and an object of the decoder. -/
structure Entry (D : Type) where
  data : D
  refs : List Key
deriving DecidableEq

def entryOf {D : Type} (H : Heap D) (p : Nat) : Entry D := ⟨(H p).data, (H p).refs.map (fun r => keyOf H r.to)⟩

/-- `CreateCodeGeneratorRequest`: the maps after the encoding of the root files. -/
def encode {D : Type} (H : Heap D) (fuel : Nat) (roots : List Nat) : List (Key × Entry D) :=
  ((roots.foldl (visit (fun _ => true) (keyOf H) (fun p => ((H p).refs.filter (·.encodes)).map (·.to)) fuel) ([], [])).2).map
    (fun p => (keyOf H p, entryOf H p))

/-- The decoder's functions: an empty identifier is no object, a known one the object built before, an unknown one an
error. -/
def decodeVisit {D : Type} (ref : Key → Option (Entry D)) : Nat → List Key × List (Key × Entry D) → Key → Except Key (List Key × List (Key × Entry D))
  | 0, st, _ => .ok st
  | n + 1, st, k =>
    if k.2 = [] then .ok st
    else if k ∈ st.1 then .ok st
    else match ref k with
      | none => .error k
      | some e => e.refs.foldlM (decodeVisit ref n) (k :: st.1, st.2 ++ [(k, e)])

/-- `ToCodeGeneratorRequest`: the objects built from the root files. -/
def decode {D : Type} (m : List (Key × Entry D)) (fuel : Nat) (roots : List Key) : Except Key (List (Key × Entry D)) :=
  (roots.foldlM (decodeVisit (fun k => m.lookup k) fuel) ([], [])).map (·.2)

/-- `toVariableDefinitionID`, `grpc/federation/generator/encode.go` lines 1326-1331: the name of the definition. -/
def varDefId (name : Name) : Name := name

/-- `strings.Join(names, ":")`. -/
def joinColon : List Name → Name
  | [] => []
  | [w] => w
  | w :: ws => w ++ ':' :: joinColon ws

/-- `toVariableDefinitionGroupID`, `grpc/federation/generator/encode.go` lines 1333-1342. -/
def groupId (sequential : Bool) (defs : List Name) : Name :=
  (if sequential then "sequential".toList else "concurrent".toList) ++ '/' :: joinColon (defs.map varDefId)

/-- `toFileID`, `grpc/federation/generator/encode.go` lines 1252-1257. -/
def fileId (pkg file : Name) : Name := pkg ++ ':' :: file

end Verif.Codegen
