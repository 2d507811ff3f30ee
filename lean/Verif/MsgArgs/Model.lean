import Verif.GoNames.Model

/-!
# Arguments and variables in a message resolver

Models the generated function of a message (`generator/templates/server.go.tmpl` lines 540-607): the arguments are fields
of the struct `req`, which is also the value of `$` in expressions (`NewLocalValue`, `grpc/federation/cel.go` lines
328-341); after the variables have been evaluated, used ones are stored into that struct (`CustomResolverArguments`,
`generator/code_generator.go` lines 2377-2399, template lines 565-572), then the custom resolver is called and the fields
are bound. Also `Fields` of the argument struct (`toDeclTypes`, `generator/code_generator.go` lines 764-810).

Simplified: variables are evaluated one after the other (for the order see C01-C04); an expression is a function of the
arguments and variables it can name; errors are not modelled. Reading a name that is not declared gives `none`.
-/

namespace Verif.MsgArgs
open Verif.GoNames

/-- A Go struct with the given fields; other fields do not exist. -/
abbrev Struct (V : Type) := Name → Option V

def Struct.set {V : Type} (s : Struct V) (n : Name) (v : Option V) : Struct V := fun m => if m = n then v else s m

/-- What an expression can name: `$.x` and `x`. -/
abbrev Expr (V : Type) := (Name → Option V) → (Name → Option V) → V

/-- A variable definition. -/
structure Def (V : Type) where
  name : Name
  used : Bool
  expr : Expr V

/-- The state: `req`, `value.vars` (both by Go name) and the values expressions see (by name). -/
structure St (V : Type) where
  req : Struct V
  vars : Struct V
  eval : Name → Option V

/-- The struct a caller creates. -/
def makeReq {V : Type} (args : List (Name × V)) : Struct V :=
  args.foldl (fun s a => s.set (toPublicGoVariable a.1) (some a.2)) (fun _ => none)

/-- The value of `$`: the declared arguments read from the struct. -/
def dollar {V : Type} (args : List Name) (req : Struct V) : Name → Option V :=
  fun x => if x ∈ args then req (toPublicGoVariable x) else none

/-- Evaluation of a definition: the result is stored by Go name and by name. -/
def evalDef {V : Type} (args : List Name) (st : St V) (d : Def V) : St V :=
  let v := d.expr (dollar args st.req) st.eval
  { st with vars := st.vars.set (toPublicGoVariable d.name) (some v), eval := fun m => if m = d.name then some v else st.eval m }

/-- `generator/templates/server.go.tmpl` lines 570-572: `req.X = value.vars.X` for the used variables. -/
def assignVars {V : Type} (defs : List (Def V)) (st : St V) : St V :=
  { st with req := (defs.filter (·.used)).foldl (fun r d => r.set (toPublicGoVariable d.name) (st.vars (toPublicGoVariable d.name))) st.req }

/-- The generated function: what the custom resolver gets and the values of the fields. -/
def resolve {V : Type} (args : List (Name × V)) (defs : List (Def V)) (fields : List (Expr V)) : Struct V × List V :=
  let names := args.map (·.1)
  let st0 : St V := ⟨makeReq args, fun _ => none, fun _ => none⟩
  let st1 := defs.foldl (evalDef names) st0
  let st2 := assignVars defs st1
  (st2.req, fields.map (fun e => e (dollar names st2.req) st2.eval))

/-- The fields of the argument struct, `generator/templates/server.go.tmpl` lines 764-807: variables come first and replace arguments of the same Go name. -/
def structFields {T : Type} (defs : List (Name × T)) (args : List (Name × T)) : List (Name × T) :=
  (defs ++ args).foldl (fun acc f => if acc.any (fun g => g.1 == toPublicGoVariable f.1) then acc else acc ++ [(toPublicGoVariable f.1, f.2)]) []

end Verif.MsgArgs
