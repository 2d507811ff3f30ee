import Verif.Types.Model

/-! # Specification: compatible types -/

namespace Verif.Types

/-- The numeric kinds of protobuf. -/
def numeric : List Kind :=
  [.double, .float, .int64, .uint64, .int32, .fixed64, .fixed32, .uint32, .sfixed32, .sfixed64, .sint32, .sint64]

/-- Types whose values are lists. -/
inductive IsList : Ty → Prop
  | scalar {k} : IsList (.scalar k true)
  | msg {m} : IsList (.msg m true)
  | enum {e} : IsList (.enum e true)

/-- Compatibility of single values, as documented: same kind, number to number, enum to number, same
or aliased messages and enums (declared on either side), number wrappers, maps with compatible keys and
values, enum selectors all of whose cases are compatible, and null to messages, bytes and lists. -/
inductive Compat (S : Schema) : Ty → Ty → Prop
  | number {k k' r r'} : k ∈ numeric → k' ∈ numeric → Compat S (.scalar k r) (.scalar k' r')
  | same {k r r'} : Compat S (.scalar k r) (.scalar k r')
  | enumNumber {e k r r'} : k ∈ numeric → Compat S (.enum e r) (.scalar k r')
  | msgSame {m r r'} : Compat S (.msg m r) (.msg m r')
  | msgAlias {m n r r'} : n ∈ S.msgAliases m ∨ m ∈ S.msgAliases n → Compat S (.msg m r) (.msg n r')
  | wrapper {m n r r'} : S.wrapper m = true → S.wrapper n = true → Compat S (.msg m r) (.msg n r')
  | map {m n k v k' v' r r'} : S.mapEntry m = some (k, v) → S.mapEntry n = some (k', v') →
      Compat S k k' → Compat S v v' → Compat S (.msg m r) (.msg n r')
  | enumSame {e r r'} : Compat S (.enum e r) (.enum e r')
  | enumAlias {e f r r'} : f ∈ S.enumAliases e ∨ e ∈ S.enumAliases f → Compat S (.enum e r) (.enum f r')
  | selector {t f e r} : Compat S t (.enum e r) → Compat S f (.enum e r) → Compat S (.selector t f) (.enum e r)
  | nullMsg {m r} : Compat S .null (.msg m r)
  | nullBytes {r} : Compat S .null (.scalar .bytes r)
  | nullList {to} : IsList to → Compat S .null to

/-- Compatible types: single values with single values, lists with lists, null with both. -/
def Compatible (S : Schema) (frm to : Ty) : Prop := Compat S frm to ∧ (frm = .null ∨ (IsList frm ↔ IsList to))

/-- Types a field can be declared with (the message behind enum selectors is private). -/
def Declared : Ty → Prop
  | .scalar _ _ | .enum _ _ => True
  | .msg n _ => n ≠ selectorName
  | _ => False

/-- Well-formed schemas: map entries and enum selectors are generated, no one can declare an alias of
them. -/
structure Schema.Wf (S : Schema) : Prop where
  map : ∀ m n, (S.mapEntry m).isSome = true → n ∉ S.msgAliases m ∧ m ∉ S.msgAliases n
  selector : ∀ n, n ∉ S.msgAliases selectorName ∧ selectorName ∉ S.msgAliases n
  selectorMap : S.mapEntry selectorName = none ∧ S.wrapper selectorName = false

end Verif.Types
