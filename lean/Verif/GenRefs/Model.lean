import Verif.AllGraph.Model
import Verif.GoNames.Model

/-!
# What the generated code of a service declares

Models how the generator decides which message resolver functions, gRPC clients, method constants and
custom resolver methods it declares for a service: `resolver/service.go` lines 51-78 and 111-174,
`resolver/message.go` lines 95-194 and 529-663, `resolver/def.go` lines 28-38 and 145-195,
`resolver/resolver.go` lines 3582-3600 and 3630-3644, `generator/code_generator.go` lines 1566-1637
and 3571-3584.

A message is identified with its position in the list of all messages, a service that is called with
a number, a method of it with its name.
-/

namespace Verif.GenRefs

abbrev Name := GoNames.Name

/-- A variable definition (`resolver/def.go` lines 145-161 distinguishes the same cases).  `handler`
is the list of all definitions of the error entries of a call or validation, entry by entry: the
definitions of the entry, then for each detail its definitions and its messages (lines 163-169 and
181-195 visit them in this order).
Simplifications: arguments, conditions and expressions are left out, they declare nothing.  A map
expression without a message is `other`. -/
inductive Def where
  | call (svc : Nat) (method : Name) (handler : List Def)
  | message (m : Nat)
  | map (m : Nat)
  | validation (handler : List Def)
  | other

/-- A message.  `option`: it has the message option (`m.Rule != nil`); `defs` are the definitions of
the option, `oneof` those of the oneof fields (field after field), `custom` is
`HasCustomResolver` (`resolver/message.go` lines 247-253), `customFields` are the fields of
`CustomResolverFields` (331-343), `everyField` is `HasRuleEveryFields` (255-266). -/
structure Msg where
  option : Bool
  defs : List Def
  oneof : List Def
  custom : Bool
  customFields : List Nat
  everyField : Bool

/-- A method of the service that is generated: request message, response message and the message of
the `response` method option. -/
structure Method where
  request : Nat
  response : Nat
  custom : Option Nat

/-- The service that is generated: its methods and the messages its service variables use
(`HasMessageInVariables`, `resolver/service.go` lines 66-78). -/
structure Service where
  methods : List Method
  vars : List Nat

/-- `FederationResponse`, `resolver/method.go` lines 3-8. -/
def Method.federationResponse (m : Method) : Nat := m.custom.getD m.response

def noMsg : Msg := ⟨false, [], [], false, [], false⟩

/-- The message at a position. -/
def getMsg (msgs : List Msg) (m : Nat) : Msg := (msgs[m]?).getD noMsg

/-- `HasRule` and `HasResolvers`, `resolver/message.go` lines 95-112 and 121-146. -/
def Msg.hasRule (m : Msg) : Bool :=
  m.option && (!m.defs.isEmpty || !m.oneof.isEmpty || m.custom || m.everyField)

mutual
/-- A definition as the graph of all messages sees it (`resolver/graph.go` lines 100-222). -/
def toM : Def → AllGraph.MDef
  | .call _ _ h => .nested (toMs h)
  | .message m => .message m
  | .map m => .map m
  | .validation h => .nested (toMs h)
  | .other => .other
def toMs : List Def → List AllGraph.MDef
  | [] => []
  | d :: ds => toM d :: toMs ds
end

/-- The messages as the graph of all messages sees them (`resolver/graph.go` lines 14-27, 75-98). -/
def toAll (msgs : List Msg) : List AllGraph.Msg :=
  msgs.map fun m => if m.option then some (toMs (m.defs ++ m.oneof)) else none

mutual
/-- `VariableDefinition.MessageExprs`, `resolver/def.go` lines 145-195. -/
def messageExprs : Def → List Nat
  | .call _ _ h => messageExprsL h
  | .message m => [m]
  | .map m => [m]
  | .validation h => messageExprsL h
  | .other => []
def messageExprsL : List Def → List Nat
  | [] => []
  | d :: ds => messageExprs d ++ messageExprsL ds
end

/-- A recursion over messages that adds what each message contributes: `childMessages`
(`resolver/graph.go` lines 48-57), `dependentMethods` and `CustomResolvers` have this form.
Simplification: the contribution of a message comes before that of its successors; the results are
only used as sets, or sorted by name. The Go functions have no bound on the depth; `fuel` is one. -/
def gather {α : Type} (own : Nat → List α) (succ : Nat → List Nat) : Nat → Nat → List α
  | 0, _ => []
  | fuel + 1, m => own m ++ (succ m).flatMap (gather own succ fuel)

/-- `childMessages`, `resolver/graph.go` lines 48-57.  A child without the option is skipped by the
Go function; `AllGraph.children` leaves it out. -/
def childMessages (msgs : List Msg) (root : Nat) : List Nat :=
  gather (fun m => [m]) (AllGraph.children (toAll msgs)) (msgs.length + 1) root

/-- `svc.HasMessageInMethod(msg) || svc.HasMessageInVariables(msg)`, `resolver/service.go` lines
51-78. -/
def Service.hasMessage (s : Service) (m : Nat) : Bool :=
  s.methods.any (fun mtd => mtd.request == m || mtd.federationResponse == m) || s.vars.contains m

/-- `svc.Messages`, `resolver/resolver.go` lines 3582-3600 and 3630-3644.
Simplification: with repetitions, the Go code uses a set. -/
def messages (msgs : List Msg) (s : Service) : List Nat :=
  (AllGraph.roots (toAll msgs)).flatMap fun r =>
    if s.hasMessage r then childMessages msgs r else []

/-- The message resolver functions that are generated: `server.go.tmpl` lines 535-540, for
`Messages`, `generator/code_generator.go` lines 3571-3584. -/
def resolvers (msgs : List Msg) (s : Service) : List Nat :=
  (messages msgs s).filter fun m => (getMsg msgs m).hasRule

/-- The definitions in the error entries of a definition, as far as `VariableDefinitionGroups` looks
(`resolver/message.go` lines 157-171 with `resolver/def.go` lines 28-38). -/
def Def.handlerDefs : Def → List Def
  | .call _ _ h => h
  | .validation h => h
  | _ => []

/-- `AllVariableDefinitions`, `resolver/message.go` lines 148-194.
Simplification: the definitions of a set stand for the definitions of its groups, which are the same
ones, in another order and possibly repeated (C03). -/
def allDefs (m : Msg) : List Def :=
  if m.option then m.defs ++ m.defs.flatMap Def.handlerDefs ++ m.oneof else []

/-- The definitions that get an evaluation plan: `resolveMessageDependencies` with
`resolveGRPCErrorMessageDependencies`, `resolver/resolver.go` lines 5072-5117, which call
`setupVariableDefinitionSet` for the definitions of the message option, for the definitions and the
messages of the error entries of the calls and validations among these, and for the definitions of
oneof fields.  A set without a plan has no groups, and the template `evalDefSet` then prints the
functions of its definitions but no call of them (`eval.go.tmpl` lines 214-246).
Simplification: the definitions of a set stand for those of its plan (C03 proves that a plan
evaluates all of them). -/
def planned (m : Msg) : List Def :=
  if m.option then
    m.defs ++ m.defs.flatMap (fun d => match d with
      | .call _ _ errors => errors
      | .validation error => error
      | _ => []) ++ m.oneof
  else []

/-- A variable definition: message and position in `allDefs`.  The Go code uses the pointer. -/
abbrev Node := Nat × Nat

/-- The nodes of a message. -/
def nodes (msgs : List Msg) (m : Nat) : List Node :=
  (List.range (allDefs (getMsg msgs m)).length).map fun i => (m, i)

/-- The definition at a node. -/
def nodeDef (msgs : List Msg) (n : Node) : Def :=
  ((allDefs (getMsg msgs n.1))[n.2]?).getD .other

/-- The services that `dependServicesByDefinition` returns for the definition itself, and the
definitions it goes on with: `resolver/message.go` lines 649-661. -/
def nodeServices (msgs : List Msg) (n : Node) : List Nat :=
  match nodeDef msgs n with
  | .call s _ _ => [s]
  | _ => []

def nodeSucc (msgs : List Msg) (n : Node) : List Node :=
  match nodeDef msgs n with
  | .call _ _ _ => []
  | d => (messageExprs d).flatMap (nodes msgs)

/-- `defMap` and the services collected so far. -/
structure St where
  vis : List Node
  out : List Nat

/-- `dependServicesByDefinition` with the loop of `dependServices` unfolded, `resolver/message.go`
lines 627-663.  The Go function has no bound on the depth; `fuel` is one. -/
def visit (msgs : List Msg) : Nat → Node → St → St
  | 0, _, st => st
  | fuel + 1, n, st =>
    if n ∈ st.vis then st
    else (nodeSucc msgs n).foldl (fun st c => visit msgs fuel c st)
      ⟨n :: st.vis, st.out ++ nodeServices msgs n⟩

/-- The number of nodes of all messages, a bound on the depth of `visit`. -/
def allNodes (msgs : List Msg) : List Node :=
  (List.range msgs.length).flatMap (nodes msgs)

/-- `DependServices`, `resolver/message.go` lines 619-637. -/
def dependServices (msgs : List Msg) (m : Nat) : List Nat :=
  ((nodes msgs m).foldl (fun st n => visit msgs ((allNodes msgs).length + 1) n st) ⟨[], []⟩).out

/-- `UseServices`, `resolver/service.go` lines 156-174, which is also `ServiceDependencies` (lines
138-154) and so the list of clients in the generated client set (`server.go.tmpl` lines 111-117). -/
def useServices (msgs : List Msg) (s : Service) : List Nat :=
  s.methods.flatMap fun mtd => dependServices msgs mtd.response

/-- The calls that `dependentMethods` collects from the definitions of a message itself, and the
messages it goes on with: `generator/code_generator.go` lines 1583-1637. -/
def ownMethods (ds : List Def) : List (Nat × Name) :=
  ds.flatMap fun d => match d with
    | .call s k _ => [(s, k)]
    | _ => []

def methodSucc (ds : List Def) : List Nat :=
  ds.flatMap fun d => match d with
    | .call _ _ _ => []
    | d => messageExprs d

/-- The definitions `dependentMethods` looks at. -/
def topDefs (m : Msg) : List Def := if m.option then m.defs ++ m.oneof else []

/-- `dependentMethods`, `generator/code_generator.go` lines 1583-1637. -/
def dependentMethods (msgs : List Msg) (m : Nat) : List (Nat × Name) :=
  gather (fun m => ownMethods (topDefs (getMsg msgs m))) (fun m => methodSucc (topDefs (getMsg msgs m)))
    (msgs.length + 1) m

/-- `DependentMethods`, `generator/code_generator.go` lines 1566-1581: the constants that are
declared (`server.go.tmpl` lines 201-208), one for the service and the name of the method as
written.  Simplification: the service is kept instead of its Go name. -/
def constants (msgs : List Msg) (s : Service) : List (Nat × Name) :=
  s.methods.flatMap fun mtd => dependentMethods msgs mtd.federationResponse

/-- A method of the custom resolver interface: for a message, or for a field of it
(`resolver/service.go` lines 96-109). -/
abbrev Custom := Nat × Option Nat

/-- The custom resolvers of a message itself, `resolver/message.go` lines 534-545. -/
def ownCustom (msgs : List Msg) (m : Nat) : List Custom :=
  (if (getMsg msgs m).option && (getMsg msgs m).custom then [(m, none)] else []) ++
    (getMsg msgs m).customFields.map fun f => (m, some f)

/-- `Message.CustomResolvers`, `resolver/message.go` lines 529-569.
Simplification: for a message without the option the Go function panics (line 546); here it goes on
with no definitions. -/
def customResolversOf (msgs : List Msg) (m : Nat) : List Custom :=
  gather (ownCustom msgs) (fun m => messageExprsL (getMsg msgs m).defs) (msgs.length + 1) m

/-- `Service.CustomResolvers`, `resolver/service.go` lines 111-129: the methods of the resolver
interface (`server.go.tmpl` lines 119-125). -/
def customResolvers (msgs : List Msg) (s : Service) : List Custom :=
  s.methods.flatMap fun mtd => customResolversOf msgs mtd.federationResponse

end Verif.GenRefs
