/-!
# Enum aliases

Models how the resolver resolves the aliases of enum values (`resolver/resolver.go` lines 1863-1870,
3100-3208, 3245-3270, `resolver/enum.go` lines 26-43), which conversions between enums it accepts
(`findEnumAliasName`, lines 1698-1719) and the conversion function generated for two enums
(`generator/code_generator.go` lines 2085-2190, `generator/templates/cast.go.tmpl` `castEnum`).

Names are lists of characters.  The generated code refers to enum values by their Go constants; the
model uses the numbers of the constants.  An enum is identified by its full name (the Go code
compares pointers to the one resolved enum of that name).
-/

namespace Verif.EnumMap

abbrev Name := List Char

/-- A value of an enum as declared: name and number. -/
structure Decl where
  name : Name
  number : Int
deriving DecidableEq, Repr

/-- An enum that is the target of an alias: full name and values. -/
structure Target where
  fqdn : Name
  vals : List Decl
deriving DecidableEq, Repr

/-- The `grpc.federation.enum_value` option of a value. -/
structure ValueOpt where
  default : Bool := false
  alias : List Name := []
deriving DecidableEq, Repr

/-- A value with its option. -/
structure ValueDef where
  decl : Decl
  opt : Option ValueOpt
deriving DecidableEq, Repr

/-- An enum as written: `rule` is the list of its alias enums, `none` without enum option. -/
structure EnumDef where
  fqdn : Name
  rule : Option (List Target)
  vals : List ValueDef
deriving DecidableEq, Repr

/-- `Enum.Value`, `resolver/enum.go` lines 26-43. -/
def Target.value (t : Target) (name : Name) : Option Decl :=
  if '.' ∈ name then
    let pre := t.fqdn ++ ['.']
    if pre.isPrefixOf name then t.vals.find? (fun v => v.name == name.drop pre.length) else none
  else t.vals.find? (fun v => v.name == name)

/-- `EnumValueAlias`: one alias value (the resolver never puts more than one into it). -/
structure Alias where
  enum : Name
  vals : List Decl
deriving DecidableEq, Repr

/-- `EnumValueRule`. -/
structure Rule where
  default : Bool
  aliases : List Alias
deriving DecidableEq, Repr

/-- `resolveEnumValueRuleByAutoAlias`, `resolver/resolver.go` lines 3245-3270. An error is `none`. -/
def autoAlias (name : Name) (ts : List Target) : Option (List Alias) :=
  let as := ts.filterMap (fun t => (t.value name).map (fun d => (⟨t.fqdn, [d]⟩ : Alias)))
  if as.length ≠ ts.length then none else some as

/-- The lookup of `resolver/resolver.go` lines 3175-3185. -/
def lookupAlias (pkg alias : Name) (t : Target) : Option Alias :=
  match t.value alias with
  | some d => some ⟨t.fqdn, [d]⟩
  | none => match t.value (pkg ++ ['.'] ++ alias) with
    | some d => some ⟨t.fqdn, [d]⟩
    | none => none

/-- `resolveEnumValueAlias`, `resolver/resolver.go` lines 3167-3208. -/
def valueAlias (pkg name alias : Name) (ts : List Target) : Option (List Alias) :=
  if alias = [] then autoAlias name ts
  else
    let as := ts.filterMap (lookupAlias pkg alias)
    if as.length = 0 then none
    else if !(decide ('.' ∈ alias)) && as.length != ts.length then none
    else some as

/-- The loop of `resolver/resolver.go` lines 3153-3155. -/
def explicitAliases (pkg name : Name) (ts : List Target) : List Name → Option (List Alias)
  | [] => some []
  | a :: as => match valueAlias pkg name a ts with
    | none => none
    | some l => match explicitAliases pkg name ts as with
      | none => none
      | some l' => some (l ++ l')

/-- `resolveEnumValueRule`, `resolver/resolver.go` lines 3130-3165. The outer `none` is an error, the inner one a nil rule.
Attributes are left out. -/
def valueRule (pkg : Name) (rule : Option (List Target)) (name : Name) :
    Option ValueOpt → Option (Option Rule)
  | none => match rule with
    | none => some none
    | some ts => match autoAlias name ts with
      | none => none
      | some as => some (some ⟨false, as⟩)
  | some o =>
    if o.alias ≠ [] ∧ (rule = none ∨ rule = some []) then none
    else match rule with
      | none => some (some ⟨o.default, []⟩)
      | some ts =>
        if o.default then some (some ⟨true, []⟩)
        else if o.alias ≠ [] then
          match explicitAliases pkg name ts o.alias with
          | none => none
          | some as => some (some ⟨false, as⟩)
        else match autoAlias name ts with
          | none => none
          | some as => some (some ⟨false, as⟩)

/-- A resolved enum value. -/
structure Value where
  decl : Decl
  rule : Option Rule
deriving DecidableEq, Repr

/-- A resolved enum; `aliases` is empty for a nil rule. -/
structure Enum where
  fqdn : Name
  aliases : List Name
  vals : List Value
deriving DecidableEq, Repr

/-- The loop over the values, `resolver/resolver.go` lines 1868-1871; resolution fails if any value has an error. -/
def resolveValues (pkg : Name) (rule : Option (List Target)) : List ValueDef → Option (List Value)
  | [] => some []
  | v :: vs => match valueRule pkg rule v.decl.name v.opt with
    | none => none
    | some r => match resolveValues pkg rule vs with
      | none => none
      | some rs => some (⟨v.decl, r⟩ :: rs)

/-- `resolveEnumRules`, `resolver/resolver.go` lines 1863-1873. -/
def resolve (pkg : Name) (e : EnumDef) : Option Enum :=
  match resolveValues pkg e.rule e.vals with
  | none => none
  | some vs => some ⟨e.fqdn, (e.rule.getD []).map (·.fqdn), vs⟩

/-- `findEnumAliasName`, `resolver/resolver.go` lines 1698-1719. -/
def accepted (frm to : Enum) : Bool := decide (to.fqdn ∈ frm.aliases) || decide (frm.fqdn ∈ to.aliases)

/-- `CastEnum`: the cases of the switch, and the default. -/
structure Switch where
  cases : List (Int × Int)
  default : Int
deriving DecidableEq, Repr

/-- `toEnumFromDepServiceToService`, `code_generator.go` lines 2121-2153. -/
def depToSvc (to : Enum) (frm : Name) : Switch :=
  { cases := to.vals.flatMap (fun v => match v.rule with
      | none => []
      | some r => r.aliases.flatMap (fun a =>
          if a.enum ≠ frm then [] else a.vals.map (fun d => (d.number, v.decl.number))))
    default := to.vals.foldl (fun d v => match v.rule with
      | none => d
      | some r => if r.default then v.decl.number else d) 0 }

/-- The inner loop of `toEnumFromServiceToDepService`, `generator/code_generator.go` lines 2168-2180. -/
def svcCases (to : Name) (n : Int) : List Alias → Option (List (Int × Int))
  | [] => some []
  | a :: as =>
    if a.enum ≠ to then svcCases to n as
    else match a.vals with
      | [d] => (svcCases to n as).map ((n, d.number) :: ·)
      | _ => none

/-- `toEnumFromServiceToDepService`, `generator/code_generator.go` lines 2157-2191; `none` is an error. -/
def svcToDepCases (to : Name) : List Value → Option (List (Int × Int))
  | [] => some []
  | v :: vs => match v.rule with
    | none => svcToDepCases to vs
    | some r => match svcCases to v.decl.number r.aliases with
      | none => none
      | some cs => if r.default then none else (svcToDepCases to vs).map (cs ++ ·)

/-- The part of `ToEnum` for enums without aliases, `generator/code_generator.go` lines 2095-2116. `from.Value(name)` is the lookup
above: enum value names contain no dot. -/
def sameNameCases (frm : Enum) (vs : List Value) : List (Int × Int) :=
  vs.filterMap (fun v => match v.rule with
    | none => none
    | some _ => ((frm.vals.map (·.decl)).find? (fun d => d.name == v.decl.name)).map
        (fun d => (d.number, v.decl.number)))

/-- `ToEnum`, `generator/code_generator.go` lines 2085-2117. `none` is a generation error. -/
def toEnum (frm to : Enum) : Option Switch :=
  if to.aliases ≠ [] then some (depToSvc to frm.fqdn)
  else if frm.aliases ≠ [] then (svcToDepCases to.fqdn frm.vals).map (fun cs => ⟨cs, 0⟩)
  else some ⟨sameNameCases frm to.vals, 0⟩

/-- The Go compiler rejects a switch with duplicate constants. -/
def compiles (s : Switch) : Prop := (s.cases.map (·.1)).Nodup

instance (s : Switch) : Decidable (compiles s) := inferInstanceAs (Decidable (List.Nodup _))

/-- `castEnum`, `cast.go.tmpl` lines 113-133. -/
def Switch.run (s : Switch) (n : Int) : Int :=
  match s.cases.find? (fun c => c.1 == n) with
  | some c => c.2
  | none => s.default

end Verif.EnumMap
