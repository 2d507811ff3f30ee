import Verif.SetField.Model
import Verif.Types.Spec

/-! # C121: the specification -/

namespace Verif.SetField

open Verif.Types

/-- Neither a list nor a map, and the type of a field. -/
def Single (S : Schema) : Ty → Prop
  | .scalar _ r | .enum _ r => r = false
  | .msg n r => r = false ∧ S.mapEntry n = none
  | _ => False

/-- Types of fields: maps are not repeated. -/
def Proper (S : Schema) : Ty → Prop
  | .scalar _ _ | .enum _ _ => True
  | .msg n r => (S.mapEntry n).isSome = true → r = false
  | _ => False

/-- What holds of all schemas: keys and values of maps are neither lists nor maps, and number wrappers are not made for maps. -/
structure Flat (S : Schema) : Prop where
  entry : ∀ m k v, S.mapEntry m = some (k, v) → Single S k ∧ Single S v
  wrapper : ∀ m, S.wrapper m = true → S.mapEntry m = none

/-- Messages that are aliases of each other, or number wrappers, can be converted into each other. -/
def MessagesConvert (S : Schema) (E : Env) : Prop :=
  ∀ a b, (b ∈ S.msgAliases a ∨ a ∈ S.msgAliases b) ∨ (S.wrapper a = true ∧ S.wrapper b = true) → E.msg a b = true

end Verif.SetField
