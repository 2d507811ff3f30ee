import Verif.GoNames.Props

/-!
# Local variables of the generated code

Models what the function of a message declares to keep the values of its definitions: `DeclVariables`, `IsDeclVariables` and
`CustomResolverArguments` (`generator/code_generator.go` lines 1825-1861 and 2377-2400), the fields that the argument struct gets
for them (`generator/code_generator.go` lines 763-784), `VariableDefinitionGroups` and `HasCELValue` (`resolver/message.go`
lines 148-182 and 196-245), `DefinitionGroups` of error entries (`resolver/def.go` lines 28-38); and what the code uses: the
setters of definitions (`generator/templates/eval.go.tmpl` lines 16-19 and 81-84), which are printed for all definitions, also
those of error entries, of their details, and of oneof fields, and the places that use `value`
(`generator/templates/server.go.tmpl` lines 546-604).

Simplifications: the groups of a set of definitions are its definitions (C02); all definitions have a type.
-/

namespace Verif.Locals

abbrev Name := GoNames.Name

mutual

/-- A definition: name, Go type, whether a custom resolver may use it (`Used`), and the error entries of its call or validation. -/
inductive Def (T : Type) where
  | mk (name : Name) (type : T) (used : Bool) (errors : List (Entry T))

/-- An error entry: its definitions and its details. -/
inductive Entry (T : Type) where
  | mk (defs : List (Def T)) (details : List (Detail T))

/-- A detail: its definitions and its messages. -/
inductive Detail (T : Type) where
  | mk (defs : List (Def T)) (messages : List (Def T))

end

/-- What is declared for a definition. -/
structure Var (T : Type) where
  name : Name
  type : T
  used : Bool
deriving DecidableEq, Repr

def Def.var {T : Type} : Def T → Var T
  | .mk n t u _ => ⟨n, t, u⟩

def Def.errors {T : Type} : Def T → List (Entry T)
  | .mk _ _ _ es => es

/-- A field of a message: whether it is in a oneof, has a custom resolver, an expression (`by`), and the definitions of its
oneof option, which has `if` or `by`. -/
structure Fld (T : Type) where
  inOneof : Bool
  custom : Bool
  expr : Bool
  oneof : Option (List (Def T))

/-- A message; `env` says whether the service has an environment or variables, `auto` whether a field is bound to a variable. -/
structure Msg (T : Type) where
  defs : List (Def T)
  fields : List (Fld T)
  auto : Bool
  env : Bool

variable {T : Type}

/-! ## What is declared -/

/-- `GRPCError.DefinitionGroups`, `resolver/def.go` lines 28-38. -/
def entryTop : Entry T → List (Var T)
  | .mk ds details => ds.map Def.var ++ details.flatMap fun | .mk ds ms => ds.map Def.var ++ ms.map Def.var

/-- `Message.VariableDefinitionGroups`, `resolver/message.go` lines 148-182: error entries of the definitions of the message, but
not those of other definitions. Each definition is in some group; here it is listed once, in its own order. -/
def groups (m : Msg T) : List (Var T) :=
  m.defs.map Def.var ++ (m.defs.flatMap fun d => d.errors.flatMap entryTop) ++
    m.fields.flatMap fun f => (f.oneof.getD []).map Def.var

/-- Writing a key of the map of `DeclVariables`. -/
def put (v : Var T) : List (Var T) → List (Var T)
  | [] => [v]
  | w :: ws => if w.name = v.name then v :: ws else w :: put v ws

/-- `DeclVariables`, `generator/code_generator.go` lines 1834-1861: the fields of the struct with their types, without their order. -/
def declVars (m : Msg T) : List (Name × T) :=
  ((groups m).foldl (fun l v => put v l) []).map fun v => (GoNames.toPublicGoVariable v.name, v.type)

/-- `HasCELValue`, `resolver/message.go` lines 196-245, the loop over the fields; the loop over the definitions only says yes if
there are definitions. -/
def hasCEL (m : Msg T) : Bool := m.fields.any fun f => f.expr || f.oneof.isSome

/-- `IsDeclVariables`, `generator/code_generator.go` lines 1825-1827: whether `value` is declared. -/
def isDecl (m : Msg T) : Bool := hasCEL m || !m.defs.isEmpty

/-- The fields of the argument struct for variables, `generator/code_generator.go` lines 765-784: the first of each Go name. -/
def argVars (m : Msg T) : List (Name × T) :=
  ((groups m).filter Var.used).foldl (fun l v =>
    if (l.map Prod.fst).contains (GoNames.toPublicGoVariable v.name) then l
    else l ++ [(GoNames.toPublicGoVariable v.name, v.type)]) []

/-- `CustomResolverArguments`, `generator/code_generator.go` lines 2377-2400: the variables that are assigned to the argument struct. -/
def customArgs (m : Msg T) : List Name := ((groups m).filter Var.used).map fun v => GoNames.toPublicGoVariable v.name

/-! ## What is used -/

mutual

/-- The definitions that are printed for a list of definitions, `generator/templates/eval.go.tmpl` lines 1-176 and 214-218. -/
def deepDefs : List (Def T) → List (Var T)
  | [] => []
  | .mk n t u es :: ds => ⟨n, t, u⟩ :: (deepEntries es ++ deepDefs ds)

/-- Those of error entries, `generator/templates/error_handler.go.tmpl` lines 34-38 and `generator/templates/validation.go.tmpl`
lines 5-12. -/
def deepEntries : List (Entry T) → List (Var T)
  | [] => []
  | .mk ds details :: es => deepDefs ds ++ (deepDetails details ++ deepEntries es)

/-- Those of details, `generator/templates/error_handler.go.tmpl` lines 88-109 and `generator/templates/validation.go.tmpl` lines
34-55. -/
def deepDetails : List (Detail T) → List (Var T)
  | [] => []
  | .mk ds ms :: r => deepDefs ds ++ (deepDefs ms ++ deepDetails r)

end

/-- All definitions whose setters assign to a field of the struct, `generator/templates/server.go.tmpl` lines 563 and 741. -/
def assigned (m : Msg T) : List (Var T) := deepDefs m.defs ++ m.fields.flatMap fun f => deepDefs (f.oneof.getD [])

/-- Whether the value of a field is set by an expression: `ReturnFields`, `generator/code_generator.go` lines 2402-2442, passes over
expressions of fields with a custom resolver and of members of a oneof. -/
def setByExpr (f : Fld T) : Bool := f.expr && !f.custom && !f.inOneof

/-- Whether `value` occurs after its declaration: in definitions, for the environment (`generator/templates/server.go.tmpl` lines
556-561, inside the declaration), in expressions of fields and oneofs, and for bound variables. -/
def usesValue (m : Msg T) : Bool :=
  !m.defs.isEmpty || (isDecl m && m.env) || m.fields.any (fun f => setByExpr f || f.oneof.isSome) || m.auto

end Verif.Locals
