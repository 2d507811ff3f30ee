import Verif.OneofSel.Model
import Verif.SrvTy.Spec

/-! # Specification: a oneof whose fields have one type -/

namespace Verif.OneofSel

open Verif.CelTy Verif.SrvTy

/-- All fields of the oneof `o` of `m` have the type `t`. -/
def SameType (m : Msg) (o : String) (t : Ty) : Prop :=
  (∃ f ∈ m.fields, f.oneof = some o) ∧ ∀ f ∈ m.fields, f.oneof = some o → f.ty = t

/-- Types of fields of oneofs: protobuf has no lists and maps there. The name of enum selectors is left out. -/
def OneofTy : Ty → Prop
  | .scalar _ r => r = false
  | .msg n r => r = false ∧ n ≠ ["grpc", "federation", "private", "EnumSelector"]
  | .enum _ r => r = false
  | _ => False

/-- What protoc guarantees for a message: fields and oneofs have different names, oneofs have no lists and maps. -/
structure Proto (m : Msg) : Prop where
  fields : (m.fields.map (·.name)).Nodup
  oneofs : (m.oneofs.map (·.name)).Nodup
  disjoint : ∀ f ∈ m.fields, ∀ g ∈ m.fields, f.oneof ≠ some g.name
  types : ∀ f ∈ m.fields, f.oneof ≠ none → OneofTy f.ty

/-- The messages of a service: different names. -/
structure ProtoService (S : List Msg) : Prop where
  names : (S.map (·.fqdn)).Nodup
  msgs : ∀ m ∈ S, Proto m

end Verif.OneofSel
