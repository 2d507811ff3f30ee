import Verif.MsgArgs.Model
import Verif.Types.Model

/-!
# Methods of a federation service

Models the options of methods (`resolveMethodRule`, `resolver/resolver.go` lines 2304-2363; `validateMethodResponse`, lines
768-780; `FederationResponse`, `resolver/method.go` lines 3-8), the arguments of the message a method builds
(`resolveMessageArgument`, `resolver/resolver.go` lines 3604-3627; `lookupRequestMessageFromResponseMessage`, lines
5153-5160) and the generated function of a method (`generator/templates/server.go.tmpl` lines 457-531 with
`generator/code_generator.go` lines 1653-1707).

Simplifications: messages are numbers; that a text is no duration or names no message is given (`none`).  Tracing, logging
and the recovery of panics (C67) are left out.  A Go type is the type of the field.
-/

namespace Verif.Method
open Verif.GoNames Verif.MsgArgs

structure Field where
  name : Name
  ty : Types.Ty
deriving DecidableEq

/-- A message: its fields, whether it has the message option, and its variables (those used, with their types). -/
structure Msg where
  fields : List Field
  hasRule : Bool
  vars : List (Name × Types.Ty)

/-- A method as declared: the option `timeout` with its duration, the option `response` with its message. -/
structure Decl where
  name : String
  request : Nat
  response : Nat
  timeout : Option (Option Int)
  respOpt : Option (Option Nat)
  streaming : Bool
deriving DecidableEq

inductive Err where
  | timeout (method : String)
  | noMessage (method : String)
  | fields (method : String) (names : List Name)
  | noOption (msg : Nat)
deriving DecidableEq

/-- `MethodRule`; a method without option is one with neither. -/
structure Rule where
  timeout : Option Int
  response : Option Nat
deriving DecidableEq

structure Method where
  decl : Decl
  rule : Rule
deriving DecidableEq

/-- The fields of the response that the message of the option lacks, `resolver/resolver.go` lines 2336-2347. -/
def notFound (msg res : Msg) : List Name :=
  (res.fields.filter fun f =>
    match msg.fields.find? (fun g => g.name == f.name) with
    | none => true
    | some g => Types.isDifferent g.ty f.ty).map (·.name)

/-- The option `timeout`, `resolver/resolver.go` lines 2310-2323. -/
def resolveTimeout (d : Decl) : Option Int × List Err :=
  match d.timeout with
  | none => (none, [])
  | some none => (none, [.timeout d.name])
  | some (some t) => (some t, [])

/-- The option `response`, `resolver/resolver.go` lines 2324-2361. -/
def resolveResponse (msgs : Nat → Msg) (d : Decl) : Option Nat × List Err :=
  match d.respOpt with
  | none => (none, [])
  | some none => (none, [.noMessage d.name])
  | some (some m) =>
    let ns := notFound (msgs m) (msgs d.response)
    (some m, if ns ≠ [] then [.fields d.name ns] else [])

/-- `resolveMethodRule`, `resolver/resolver.go` lines 2304-2363. -/
def resolveRule (msgs : Nat → Msg) (d : Decl) : Method × List Err :=
  (⟨d, (resolveTimeout d).1, (resolveResponse msgs d).1⟩, (resolveTimeout d).2 ++ (resolveResponse msgs d).2)

/-- `FederationResponse`, `resolver/method.go` lines 3-8. -/
def Method.fedResponse (m : Method) : Nat := m.rule.response.getD m.decl.response

/-- `validateMethodResponse`, `resolver/resolver.go` lines 768-780. -/
def responseErrs (msgs : Nat → Msg) (m : Method) : List Err :=
  if (msgs m.fedResponse).hasRule then [] else [.noOption m.fedResponse]

/-- The methods of all services, and whether their service has the service option.  `built` gives for a message that other
messages build the arguments they pass (C40), and `none` for a root of the graph. -/
structure Schema where
  msgs : Nat → Msg
  methods : List (Bool × Decl)
  built : Nat → Option (List Field)

def Schema.resolved (S : Schema) : List Method := S.methods.map fun p => (resolveRule S.msgs p.2).1

def Schema.errs (S : Schema) : List Err :=
  S.methods.flatMap (fun p => (resolveRule S.msgs p.2).2) ++
    (S.methods.filter (·.1)).flatMap fun p => responseErrs S.msgs (resolveRule S.msgs p.2).1

/-- `lookupRequestMessageFromResponseMessage`, `resolver/resolver.go` lines 5153-5160; `order` is the order in which the map
of methods is walked. -/
def lookupRequest (order : List Method) (res : Nat) : Option Nat :=
  (order.find? fun m => m.fedResponse == res).map (·.decl.request)

/-- The fields of the argument of a message, `resolver/resolver.go` lines 3604-3627: for a root those of the request, for
others those that are passed (lines 3689-3708). -/
def argFields (S : Schema) (order : List Method) (res : Nat) : List Field :=
  match S.built res with
  | some fs => fs
  | none =>
    match lookupRequest order res with
    | none => []
    | some q => (S.msgs q).fields

/-- The struct type of the argument of a message. -/
def argStruct (S : Schema) (order : List Method) (res : Nat) : List (Name × Types.Ty) :=
  structFields (S.msgs res).vars ((argFields S order res).map fun f => (f.name, f.ty))

/-- The function of a method: the three branches of `generator/templates/server.go.tmpl` lines 486-529. -/
inductive Body where
  | timeout (duration : Int) (resolver : Nat)
  | custom (resolver : Nat) (to : Nat)
  | plain (resolver : Nat)
deriving DecidableEq

/-- `UseTimeout`, `CustomResponse` and `ResolverName`, `generator/code_generator.go` lines 1653-1682. -/
def body (m : Method) : Body :=
  match m.rule.timeout with
  | some d => .timeout d m.fedResponse
  | none =>
    match m.rule.response with
    | some _ => .custom m.fedResponse m.decl.response
    | none => .plain m.fedResponse

/-- The message the function returns, if the branches return what they are given. -/
def Body.returns : Body → Nat
  | .timeout _ r => r
  | .custom _ to => to
  | .plain r => r

/-- `ReturnTypeArguments`, `generator/code_generator.go` lines 1701-1707: the Go names of the fields of the request. -/
def literal (S : Schema) (m : Method) : List (Name × Types.Ty) :=
  (S.msgs m.decl.request).fields.map fun f => (toPublicGoVariable f.name, f.ty)

/-- Does the Go compiler accept the function?  The message that is returned is the declared one, each field of the literal
is a field of the struct, with the type of the getter, and none is given twice. -/
def compiles (S : Schema) (order : List Method) (m : Method) : Bool :=
  decide ((body m).returns = m.decl.response) &&
    (literal S m).all (fun p => decide ((argStruct S order m.fedResponse).lookup p.1 = some p.2)) &&
    decide ((literal S m).map (·.1)).Nodup

/-- Does the function have the signature that the interface of the service demands?  The template writes the one of a call
with one request and one response, `generator/templates/server.go.tmpl` line 460. -/
def implements (m : Method) : Bool := !m.decl.streaming

/-- What the function calls. -/
structure Runtime (V E : Type) where
  /-- The resolver of a message, given `$`. -/
  resolve : Nat → (Name → Option V) → Except E V
  /-- `grpcfed.WithTimeout`. -/
  withTimeout : Int → Except E V → Except E V
  /-- The conversion between two messages. -/
  cast : Nat → Nat → V → Except E V

/-- The argument the function makes of the request, and `$` of it: `generator/templates/server.go.tmpl` lines 488-492,
501-505, 519-523. -/
def argument {V : Type} (S : Schema) (order : List Method) (m : Method) (req : List (Name × V)) : Name → Option V :=
  dollar ((argFields S order m.fedResponse).map (·.name)) (makeReq req)

/-- The generated function, for a request with the given values of its fields. -/
def run {V E : Type} (R : Runtime V E) (S : Schema) (order : List Method) (m : Method) (req : List (Name × V)) : Except E V :=
  match body m with
  | .timeout d r => R.withTimeout d (R.resolve r (argument S order m req))
  | .custom r to => (R.resolve r (argument S order m req)).bind (R.cast r to)
  | .plain r => R.resolve r (argument S order m req)

end Verif.Method
