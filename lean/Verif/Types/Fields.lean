import Verif.Types.Model

/-!
# The values of all fields of a message

Models `validateMessageFields` and `validateEnumMultipleAliases` (`resolver/resolver.go` lines 1534-1578 and 1839-1861), which decide
whether the values that the options of a message bind to its fields are accepted.
-/

namespace Verif.Types

/-- `FieldRule` as far as `resolver/resolver.go` lines 1551-1576 look at it. `custom` is `CustomResolver` or `MessageCustomResolver`
(`resolver/field.go` lines 10-22). `value` is the value of `by`, with its type if it is known (`resolver/value.go` lines 7-15). `aliases`
are the types of the fields of aliased messages, `autoBind` is the type of the field that is bound automatically, `oneofBy` the type of
`by` in the option of a member of a oneof. -/
structure FieldRule where
  custom : Bool := false
  value : Option (Option Ty) := none
  aliases : List Ty := []
  autoBind : Option Ty := none
  oneofBy : Option Ty := none
deriving Repr

/-- A field with its type, if that is known, and its option. -/
structure Fld where
  ty : Option Ty
  rule : Option FieldRule
deriving Repr

/-- What is reported about a field. -/
inductive FErr where
  /-- the field needs an option, `resolver/resolver.go` lines 1540-1545 -/
  | noRule
  /-- `enum.select` has to be used, `resolver/resolver.go` line 1860 -/
  | select
  | bind (e : Err)
deriving DecidableEq, Repr

/-- `validateEnumMultipleAliases`, `resolver/resolver.go` lines 1839-1861: whether there is an error. Enums are compared by name instead
of by pointer. -/
def needsSelect (S : Schema) (frm : Option Ty) (to : Ty) : Bool :=
  match to with
  | .enum b _ =>
    if (S.enumAliases b).length ≤ 1 then false
    else match frm with
      | none => false
      | some (.enum a _) => a != b
      | some (.selector _ _) => false
      | some _ => true
  | _ => false

/-- `resolver/resolver.go` lines 1556-1570, with line 1732 for an unknown type. -/
def byErrs (S : Schema) (frm : Option Ty) (to : Ty) : List FErr :=
  if needsSelect S frm to then [.select]
  else match frm with
    | none => []
    | some f => (bindErrs S f to).map .bind

/-- The body of the loop, `resolver/resolver.go` lines 1539-1576. -/
def fieldErrs (S : Schema) (f : Fld) : List FErr :=
  match f.rule with
  | none => [.noRule]
  | some r =>
    if r.custom then []
    else match f.ty with
      | none => []
      | some to =>
        (match r.value with
          | none => []
          | some t => byErrs S t to) ++
        r.aliases.flatMap (fun t => (bindErrs S t to).map .bind) ++
        (match r.autoBind with
          | none => []
          | some t => (bindErrs S t to).map .bind)

/-- `validateMessageFields`, `resolver/resolver.go` lines 1534-1578: errors with the position of their field. `hasRule` tells whether the
message has an option. -/
def messageErrs (S : Schema) (hasRule : Bool) (fs : List Fld) : List (Nat × FErr) :=
  if hasRule then fs.zipIdx.flatMap (fun x => (fieldErrs S x.1).map fun e => (x.2, e)) else []

end Verif.Types
