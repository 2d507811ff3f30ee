import Verif.Locals.Props
import Verif.MsgArgs.Props

/-!
# Which variables a custom resolver is given

Models the flag `Used` of variable definitions: it is set for the messages of error details when they are created
(`resolver/resolver.go` line 2829), for the variables that fields are bound to (`resolver/resolver.go` lines 1431-1433), for all
variables of a message with a custom resolver (`resolver/resolver.go` lines 1310-1314, `resolver/message.go` lines 276-294) and for
the names that expressions read (`resolver/resolver.go` lines 4400-4423, `resolver/def.go` lines 324-370). The fields and the
assignments that the generated code has for flagged variables are those of `Verif.Locals`, their values those of `Verif.MsgArgs`.

Simplifications: a variable that a field is bound to is found by its name, not by a pointer; the names that the expressions of a
message read (C09) are part of the message.
-/

namespace Verif.Given

abbrev Name := GoNames.Name

mutual

/-- A definition: name, Go type, whether it is a validation, the flag, and the error entries of its call or validation
(`VariableDefinition`, `resolver/types.go` lines 186-194). -/
inductive Def (T : Type) where
  | mk (name : Name) (type : T) (validation used : Bool) (errors : List (Entry T))

/-- An error entry: its definitions and its details. -/
inductive Entry (T : Type) where
  | mk (defs : List (Def T)) (details : List (Detail T))

/-- A detail: its definitions and its messages. -/
inductive Detail (T : Type) where
  | mk (defs : List (Def T)) (messages : List (Def T))

end

variable {T : Type}

def Def.name : Def T → Name
  | .mk n _ _ _ _ => n

def Def.type : Def T → T
  | .mk _ t _ _ _ => t

def Def.validation : Def T → Bool
  | .mk _ _ v _ _ => v

def Def.used : Def T → Bool
  | .mk _ _ _ u _ => u

def Def.errors : Def T → List (Entry T)
  | .mk _ _ _ _ es => es

/-- The assignment `def.Used = true`. -/
def Def.use : Def T → Def T
  | .mk n t v _ es => .mk n t v true es

/-- The option of a oneof field: its definitions and the names that its `by` reads. -/
structure OneofOpt (T : Type) where
  defs : List (Def T)
  byNames : List Name

/-- A field of a message: whether it is in a oneof, has a custom resolver, an expression, and its oneof option. -/
structure Fld (T : Type) where
  inOneof : Bool
  custom : Bool
  expr : Bool
  oneof : Option (OneofOpt T)

/-- A message: its definitions, its fields, whether it has a custom resolver, the variables that fields are bound to, the names
that its expressions read (`Message.ReferenceNames`, `resolver/message.go` lines 308-329), and whether the service has an
environment or variables. -/
structure Msg (T : Type) where
  defs : List (Def T)
  fields : List (Fld T)
  custom : Bool
  bound : List Name
  reads : List Name
  env : Bool

/-! ## The flags -/

mutual

/-- A definition when it has been resolved: the messages of details are flagged, `resolver/resolver.go` lines 2828-2831. -/
def createDefs : List (Def T) → List (Def T)
  | [] => []
  | .mk n t v u es :: ds => .mk n t v u (createEntries es) :: createDefs ds

def createEntries : List (Entry T) → List (Entry T)
  | [] => []
  | .mk ds details :: es => .mk (createDefs ds) (createDetails details) :: createEntries es

def createDetails : List (Detail T) → List (Detail T)
  | [] => []
  | .mk ds ms :: r => .mk (createDefs ds) (ms.map Def.use) :: createDetails r

end

/-- The variables that fields are bound to, `resolver/resolver.go` lines 1431-1433. -/
def bind (bound : List Name) (ds : List (Def T)) : List (Def T) :=
  ds.map fun d => if d.name ∈ bound then d.use else d

/-- `UseAllNameReference`, `resolver/message.go` lines 276-294. -/
def useAll (ds : List (Def T)) : List (Def T) :=
  ds.map fun d =>
    if d.name = [] then d
    else if d.validation then d
    else d.use

/-- `HasCustomResolver` and `HasCustomResolverFields`, `resolver/message.go` lines 247-253, 268-274 and 331-343. -/
def Msg.hasCustom (m : Msg T) : Bool := m.custom || m.fields.any (·.custom)

mutual

/-- `VariableDefinitionSet.MarkUsed` and `VariableDefinition.MarkUsed`, `resolver/def.go` lines 324-346; `CallExpr.MarkUsed` and
`ValidationExpr.MarkUsed`, `resolver/def.go` lines 348-358. -/
def markDefs (names : List Name) : List (Def T) → List (Def T)
  | [] => []
  | .mk n t v u es :: ds => .mk n t v (u || names.contains n) (markEntries names es) :: markDefs names ds

/-- `GRPCError.MarkUsed`, `resolver/def.go` lines 360-365. -/
def markEntries (names : List Name) : List (Entry T) → List (Entry T)
  | [] => []
  | .mk ds details :: es => .mk (markDefs names ds) (markDetails names details) :: markEntries names es

/-- `GRPCErrorDetail.MarkUsed`, `resolver/def.go` lines 367-370. -/
def markDetails (names : List Name) : List (Detail T) → List (Detail T)
  | [] => []
  | .mk ds ms :: r => .mk (markDefs names ds) (markDefs names ms) :: markDetails names r

end

/-- The definitions of a message after all steps: `resolveMessageRules`, `resolver/resolver.go` lines 1303-1319, `resolveAutoBindFields`,
`resolver/resolver.go` lines 1373-1438, and `resolveUsedNameReference`, `resolver/resolver.go` lines 4400-4423. -/
def flagged (m : Msg T) : List (Def T) :=
  let ds := createDefs m.defs
  let ds := if m.hasCustom then useAll ds else ds
  let ds := bind m.bound ds
  markDefs m.reads ds

/-- The definitions of a oneof field, `resolver/resolver.go` lines 4409-4422. -/
def flaggedOneof (o : OneofOpt T) : List (Def T) := markDefs o.byNames (createDefs o.defs)

/-! ## The generated code -/

mutual

/-- The definitions as the generator sees them. -/
def toDefs : List (Def T) → List (Locals.Def T)
  | [] => []
  | .mk n t _ u es :: ds => .mk n t u (toEntries es) :: toDefs ds

def toEntries : List (Entry T) → List (Locals.Entry T)
  | [] => []
  | .mk ds details :: es => .mk (toDefs ds) (toDetails details) :: toEntries es

def toDetails : List (Detail T) → List (Locals.Detail T)
  | [] => []
  | .mk ds ms :: r => .mk (toDefs ds) (toDefs ms) :: toDetails r

end

/-- The message as the generator sees it. -/
def gen (m : Msg T) : Locals.Msg T :=
  ⟨toDefs (flagged m), m.fields.map fun f => ⟨f.inOneof, f.custom, f.expr, f.oneof.map fun o => toDefs (flaggedOneof o)⟩,
    !m.bound.isEmpty, m.env⟩

end Verif.Given
