import Verif.Embed.Model

/-!
# Functions on enums

Models the attributes of enum values from the option to the answer of `attr`: `resolveEnumValueRule` and
`resolveEnumValueAttributes` (`resolver/resolver.go` lines 3130-3165, 3210-3243), the check that attributes are complete
(`resolver/resolver.go` lines 1872-1891, `resolver/enum.go` lines 45-56), the generated table
(`generator/code_generator.go` lines 713-734, `generator/templates/server.go.tmpl` lines 31-42) and the functions
`name`, `value`, `from` and `attr` (`grpc/federation/cel.go` lines 213-259). Which of them are declared is modelled in
`FileEnums`.
-/

namespace Verif.EnumAttr

open Verif.Embed

/-! ## Resolving -/

/-- A value of an enum as written: its option, if there is one, with its attributes. -/
structure ValDef where
  name : Text
  number : Int
  option : Option (List (Text × Text))
deriving DecidableEq, Repr

/-- An enum as written; `hasRule` says whether it has an option itself. -/
structure EnumDef where
  hasRule : Bool
  values : List ValDef
deriving DecidableEq, Repr

/-- A value after resolving: the attributes of its rule, `none` if it has no rule. -/
structure Val where
  name : Text
  number : Int
  rule : Option (List (Text × Text))
deriving DecidableEq, Repr

/-- Messages: an attribute without name, and an attribute that not all values have. -/
inductive Err where
  | noName
  | incomplete (name : Text) (found all : Nat)
deriving DecidableEq, Repr

/-- `resolveEnumValueAttributes` and `resolveEnumValueAttribute`, `resolver/resolver.go` lines 3210-3243. -/
def resolveAttrs : List (Text × Text) → List (Text × Text) × List Err
  | [] => ([], [])
  | a :: as =>
    let (rs, es) := resolveAttrs as
    if a.1 = [] then (rs, .noName :: es) else (a :: rs, es)

/-- `resolveEnumValueRule`, `resolver/resolver.go` lines 3130-3165, without aliases (C45). -/
def resolveVal (hasRule : Bool) (d : ValDef) : Val × List Err :=
  match d.option with
  | none => ({ name := d.name, number := d.number, rule := if hasRule then some [] else none }, [])
  | some as => ({ name := d.name, number := d.number, rule := some (resolveAttrs as).1 }, (resolveAttrs as).2)

/-- The names of all attributes of all values: the walk of `AttributeMap`, `resolver/enum.go` lines 45-56. -/
def attrNames (vs : List Val) : List Text := vs.flatMap fun v =>
  match v.rule with
  | none => []
  | some as => as.map Prod.fst

/-- The check of `resolveEnumRules`, `resolver/resolver.go` lines 1872-1891. A map has every name once; here its error is
repeated. -/
def checkAttrs (vs : List Val) : List Err :=
  ((attrNames vs).filter fun k => (attrNames vs).count k ≠ vs.length).map fun k =>
    .incomplete k ((attrNames vs).count k) vs.length

/-- `resolveEnumRules`, `resolver/resolver.go` lines 1863-1894, for one enum. -/
def resolveEnum (e : EnumDef) : List Val × List Err :=
  let vs := e.values.map (resolveVal e.hasRule)
  (vs.map Prod.fst, vs.flatMap Prod.snd ++ checkAttrs (vs.map Prod.fst))

/-! ## Generating -/

/-- What the generator does: no table, a crash, or a table with a row for each value. -/
inductive Gen where
  | none
  | crash
  | table (rows : List (Int × List (Text × Text)))
deriving DecidableEq, Repr

/-- The loop over the values, `generator/code_generator.go` lines 725-730: `value.Rule` is used without a check. Values are
written by their Go names, which stand for their numbers. -/
def genRows : List Val → Option (List (Int × List (Text × Text)))
  | [] => some []
  | v :: vs =>
    match v.rule with
    | none => none
    | some as => match genRows vs with
      | none => none
      | some rs => some ((v.number, as) :: rs)

/-- `EnumAttributes`, `generator/code_generator.go` lines 713-734, for one enum. -/
def gen (vs : List Val) : Gen :=
  if attrNames vs = [] then .none
  else match genRows vs with
    | none => .crash
    | some rows => .table rows

/-- A string of the table as Go reads it: between backquotes, `generator/templates/server.go.tmpl` line 37. (What is not one
literal has no meaning here; C104 has the exact statement.) -/
def litOf (t : Text) : Option Text :=
  match readLit (Piece.raw t).text with
  | some (v, []) => some v
  | _ => none

/-- A row as Go reads it. -/
def readRow : List (Text × Text) → Option (List (Text × Text))
  | [] => some []
  | (k, x) :: as =>
    match litOf k, litOf x, readRow as with
    | some k, some x, some as => some ((k, x) :: as)
    | _, _, _ => none

/-- All rows as Go reads them. -/
def readRows : List (Int × List (Text × Text)) → Option (List (Int × List (Text × Text)))
  | [] => some []
  | (n, as) :: rs =>
    match readRow as, readRows rs with
    | some as, some rs => some ((n, as) :: rs)
    | _, _ => none

/-- The table of the compiled server, `generator/templates/server.go.tmpl` lines 33-40. Go does not accept constant keys
that occur twice in a literal. -/
def compile (rows : List (Int × List (Text × Text))) : Option (List (Int × List (Text × Text))) :=
  match readRows rows with
  | none => none
  | some rs =>
    if (rs.map Prod.fst).Nodup ∧ ∀ r ∈ rs, (r.2.map Prod.fst).Nodup then some rs else none

/-! ## Functions -/

/-- `int32` of a CEL integer. -/
def wrap32 (n : Int) : Int := (n + 2147483648) % 4294967296 - 2147483648

/-- The value of a key in a Go map. -/
def find {K V : Type} [DecidableEq K] (k : K) : List (K × V) → Option V
  | [] => none
  | (k', v) :: l => if k' = k then some v else find k l

/-- `EnumAttrOption`, `grpc/federation/cel.go` lines 246-259; `none` is an error. -/
def attrFn (table : List (Int × List (Text × Text))) (n : Int) (k : Text) : Option Text :=
  match find (wrap32 n) table with
  | none => none
  | some row => some ((find k row).getD [])

/-- `name` in `EnumAccessorOptions`, `grpc/federation/cel.go` lines 215-222, on the map of names that protoc-gen-go generates:
of values with the same number it has the first. -/
def nameFn (vs : List Val) (n : Int) : Text := (find (wrap32 n) (vs.map fun v => (v.number, v.name))).getD []

/-- `value` in `EnumAccessorOptions`, `grpc/federation/cel.go` lines 223-230. -/
def valueFn (vs : List Val) (s : Text) : Int := (find s (vs.map fun v => (v.name, v.number))).getD 0

/-- `from` in `EnumAccessorOptions`, `grpc/federation/cel.go` lines 231-238. -/
def fromFn (n : Int) : Int := n

end Verif.EnumAttr
