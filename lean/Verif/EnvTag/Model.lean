import Verif.Embed.Model
import Verif.EnvTag.Spec

/-!
# Environment variables of a service

Models `resolveEnv`, `resolveEnvVar`, `resolveEnvVarOption` and `resolveEnvVarWithField`
(`resolver/resolver.go` lines 1909-2026, 2083-2093), the tags of the generated struct
(`generator/code_generator.go` lines 443-464, `generator/templates/server.go.tmpl` lines 138-144) and the reading of the
environment when the server starts (`generator/templates/server.go.tmpl` lines 358-363), which
`grpc/federation/alias.go` line 37 leaves to `Process` of `github.com/kelseyhightower/envconfig`. That function and
`reflect.StructTag` of Go are modelled from their definitions; texts are turned into values by a parameter.
-/

namespace Verif.EnvTag

open Verif.Embed

/-! ## Resolving -/

/-- A variable as written under `env.var`: the type, if given and resolved, is kept as it is. -/
structure VarDef (T : Type) where
  name : Text
  type : Option T
  option : Option VarOpt

/-- `env` of a service as written. -/
structure EnvDef (T : Type) where
  message : Text
  vars : List (VarDef T)

/-- A variable after resolving. -/
structure Var (T : Type) where
  name : Text
  type : T
  option : Option VarOpt

/-- Messages about `env`. -/
inductive EnvErr where
  | both
  | noMessage
  | noName
  | badName
  | noType
deriving DecidableEq, Repr

/-- `resolveEnvVar`, `resolver/resolver.go` lines 1963-2017; `validName` is `validateName` (C66). Types that cannot be
resolved (C60) are as types that are not given. -/
def resolveVar {T : Type} (validName : Text → Bool) (d : VarDef T) : Except EnvErr (Var T) :=
  if d.name = [] then .error .noName
  else if validName d.name = false then .error .badName
  else match d.type with
    | none => .error .noType
    | some t => .ok { name := d.name, type := t, option := d.option }

/-- The loop over `var`, `resolver/resolver.go` lines 1950-1956: variables with errors are left out. -/
def resolveVars {T : Type} (validName : Text → Bool) : List (VarDef T) → List (Var T) × List EnvErr
  | [] => ([], [])
  | d :: ds =>
    let (vs, es) := resolveVars validName ds
    match resolveVar validName d with
    | .ok v => (v :: vs, es)
    | .error e => (vs, e :: es)

/-- `resolveEnv`, `resolver/resolver.go` lines 1909-1961; `fieldsOf` finds the message and gives its fields as
`resolveEnvVarWithField` (lines 2019-2029) turns them into variables. -/
def resolveEnv {T : Type} (validName : Text → Bool) (fieldsOf : Text → Option (List (Var T))) (d : EnvDef T) :
    List (Var T) × List EnvErr :=
  if d.message ≠ [] ∧ d.vars ≠ [] then ([], [.both])
  else if d.message ≠ [] then
    match fieldsOf d.message with
    | none => ([], [.noMessage])
    | some vs => (vs, [])
  else resolveVars validName d.vars

/-! ## Tags -/

/-- `(*EnvVar).Tag`, `generator/code_generator.go` lines 443-464. -/
def tag (ip : Char → Bool) (name : Text) (o : Option VarOpt) : Text :=
  match o with
  | none => t!"envconfig:" ++ quote ip (upper name)
  | some o =>
    join t!" "
      ([t!"envconfig:" ++ quote ip (if o.alternate ≠ [] then o.alternate else upper name)] ++
       (if o.fallback ≠ [] then [t!"default:" ++ quote ip o.fallback] else []) ++
       (if o.required then [t!"required:\"true\""] else []) ++
       (if o.ignored then [t!"ignored:\"true\""] else []))

/-- A field of the generated struct, `generator/templates/server.go.tmpl` lines 141-143. -/
def fieldText (ip : Char → Bool) (goName goType name : Text) (o : Option VarOpt) : List Piece :=
  [.code (t!"\n\t" ++ goName ++ t!" " ++ goType ++ t!" "), .raw (tag ip name o)]

/-! ## Reading -/

/-- The end of a quoted string, as `Lookup` of `reflect.StructTag` looks for it; `esc` is true after a backslash. -/
def afterQuote : (esc : Bool) → Text → Option Text
  | _, [] => none
  | true, _ :: cs => afterQuote false cs
  | false, c :: cs =>
    if c = '"' then some cs
    else if c = '\\' then afterQuote true cs
    else afterQuote false cs

/-- Characters of the keys of a tag. -/
def keyChar (c : Char) : Bool := !(c.toNat ≤ 32 || c = ':' || c = '"' || c.toNat = 127)

/-- `Get` of `reflect.StructTag`: the empty string if the key is not there; `n` bounds the number of pairs. -/
def tagGet : Nat → Text → Text → Text
  | 0, _, _ => []
  | n + 1, t, name =>
    let t := t.dropWhile (fun c => c == ' ')
    let key := t.takeWhile keyChar
    match t.dropWhile keyChar with
    | ':' :: '"' :: r =>
      if key = [] then []
      else if key = name then
        match readStr .plain r with
        | some (v, _) => v
        | none => []
      else match afterQuote false r with
        | some r' => tagGet n r' name
        | none => []
    | _ => []

/-- The value of a key in a tag. -/
def get (t name : Text) : Text := tagGet t.length t name

/-- `isTrue` of envconfig: `strconv.ParseBool`. -/
def isTrue (s : Text) : Bool :=
  s = t!"1" || s = t!"t" || s = t!"T" || s = t!"TRUE" || s = t!"true" || s = t!"True"

/-- `gatherInfo` and `Process` of envconfig for one field that is not a struct, without prefix. -/
def process (goName tagText : Text) (env : Text → Option Text) : Outcome :=
  if isTrue (get tagText t!"ignored") then .keep
  else
    let alt := upper (get tagText t!"envconfig")
    let key := upper (if alt ≠ [] then alt else goName)
    let found := match env key with
      | some v => some v
      | none => if alt ≠ [] then env alt else none
    let dflt := get tagText t!"default"
    match found with
    | some v => .set v
    | none =>
      if dflt = [] then (if isTrue (get tagText t!"required") then .missing else .keep)
      else .set dflt

/-- Why a server does not start. -/
inductive StartErr where
  | missing (goName : Text)
  | parse (goName : Text)
deriving DecidableEq, Repr

/-- `Process` of envconfig for all fields of the struct, given as name, tag and how a text is turned into a value of its type
(`none` is an error). Fields that keep their zero value have `none`. -/
def load {V : Type} (env : Text → Option Text) : List (Text × Text × (Text → Option V)) → Except StartErr (List (Option V))
  | [] => .ok []
  | (goName, tagText, parse) :: fs =>
    match process goName tagText env with
    | .missing => .error (.missing goName)
    | .keep => match load env fs with
      | .ok l => .ok (none :: l)
      | .error e => .error e
    | .set t => match parse t with
      | none => .error (.parse goName)
      | some v => match load env fs with
        | .ok l => .ok (some v :: l)
        | .error e => .error e

end Verif.EnvTag
