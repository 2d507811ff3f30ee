/-!
# Unfinished definitions

What the resolver does with the definitions of a message when parts of them are missing, as they are while a
file is being written: a definition without expression, a map without expression, a validation without
error, an argument without value, a message that does not exist.  In `resolver/resolver.go`, absent parts
are nil pointers; every function below follows the code up to the places where it dereferences one.

A result `none` stands for a panic (a nil dereference).  Reported errors are not part of the result.
Left out are the values that no later step reads and whose check cannot panic: requests, retries,
timeouts, the `message`, `ignore_and_response`, `by` and violations of error entries, `if` and `by` of
oneof fields and the values of fields.
-/

namespace Verif.Unfinished

/-! ## The options as they are written -/

/-- An argument of a message expression, `proto/grpc/federation/federation.proto` lines 499-511: both values
are optional. -/
structure Arg where
  name : String
  byV : Option String
  inlineV : Option String
deriving DecidableEq, Repr

/-- `MessageExpr`: the name of the message and the arguments. -/
structure MsgE where
  name : String
  args : List Arg
deriving DecidableEq, Repr

/-- The expression of a map (the cases of `resolver/resolver.go` lines 2517-2527). -/
inductive MapE where
  | missing
  | by (e : String)
  | message (m : MsgE)
  | enum (by' : String)
deriving DecidableEq, Repr

mutual

/-- `VariableDefinition`: name, `if` (empty when absent), `autobind` and the expression. -/
inductive Def where
  | mk (name cond : String) (autobind : Bool) (expr : Expr)

/-- The expression of a definition (the cases of `resolver/resolver.go` lines 2454-2470).  The iterator and
its source are the empty text when absent.  `validationEmpty` is a validation without `error`. -/
inductive Expr where
  | missing
  | by (e : String)
  | map (iter src : String) (e : MapE)
  | message (m : MsgE)
  | enum (by' : String)
  | call (method : String) (errors : List Err)
  | validation (e : Err)
  | validationEmpty

/-- `GRPCError`: condition, definitions and details. -/
inductive Err where
  | mk (cond : String) (defs : List Def) (details : List Detail)

/-- `GRPCErrorDetail`: condition, definitions and messages. -/
inductive Detail where
  | mk (cond : String) (defs : List Def) (messages : List MsgE)

end

/-- A message with options: whether the message or one of its fields has a custom resolver, its
definitions and those of each oneof field. -/
structure Msg where
  custom : Bool
  customField : Bool
  defs : List Def
  oneofs : List (List Def)

/-! ## What the resolver makes of them -/

/-- `Type`, `resolver/types.go`, as far as these steps look at it.  The message of a type of kind message
is absent if it was not found. -/
inductive Kind where
  | message (name : Option String)
  | bool
  | enum
  | other (n : Nat)
deriving DecidableEq, Repr

structure Ty where
  kind : Kind
  repeated : Bool
deriving DecidableEq, Repr

/-- The variables an expression can use. -/
abbrev Env := List (String × Ty)

/-- A message that was found; `hasRule` says whether it has options. -/
structure Found where
  name : String
  hasRule : Bool
deriving DecidableEq, Repr

/-- What surrounds the definitions: the declared messages (`resolveMessageByName`) and methods (with the name
of the response), the names that are allowed (`validateName`) and the checker of expressions
(`resolveCELValue`, `resolver/resolver.go` lines 4425-4453): the type and the names it refers to
(`resolver/value.go` lines 24-44), or no value if the expression is rejected. -/
structure World where
  message : String → Option Found
  method : String → Option String
  valid : String → Bool
  check : Env → String → Option (Ty × List String)

/-- `CELValue`: `checked` is absent until the expression is accepted. -/
structure Val where
  expr : String
  checked : Option (Ty × List String) := none

/-- `Argument` with a `Value` that may be nil. -/
structure RArg where
  name : String
  value : Option Val

/-- `MessageExpr` with a `Message` that may be nil. -/
structure RMsg where
  message : Option Found
  args : List RArg

/-- `MapIteratorExpr`; `nil` is the nil pointer. -/
inductive RMapE where
  | nil
  | by (v : Val)
  | message (m : RMsg)
  | enum (v : Val)

mutual

/-- `VariableDefinition`; `ty` is `Expr.Type`. -/
inductive RDef where
  | mk (name : String) (cond : Option Val) (autobind : Bool) (expr : RExpr) (ty : Option Ty)

/-- `VariableExpr`; `nil` is the nil pointer and `empty` an expression with a call that could not be resolved
(all its parts are nil).  The source of a map is absent if the iterator has none or it was not found. -/
inductive RExpr where
  | nil
  | empty
  | by (v : Val)
  | map (iter : String) (src : Option String) (e : RMapE)
  | message (m : RMsg)
  | enum (v : Val)
  | call (response : String) (errors : List RErr)
  | validation (e : RErr)

/-- `GRPCError`. -/
inductive RErr where
  | mk (cond : Val) (defs : List RDef) (details : List RDetail)

/-- `GRPCErrorDetail`. -/
inductive RDetail where
  | mk (cond : Val) (defs messages : List RDef)

end

/-- The parts of a resolved definition. -/
def RDef.name : RDef → String | .mk n _ _ _ _ => n
def RDef.cond : RDef → Option Val | .mk _ c _ _ _ => c
def RDef.autobind : RDef → Bool | .mk _ _ a _ _ => a
def RDef.expr : RDef → RExpr | .mk _ _ _ e _ => e
def RDef.ty : RDef → Option Ty | .mk _ _ _ _ t => t

/-! ## Step 1: the options are resolved -/

/-- The name of a definition, `resolver/resolver.go` lines 2369-2384 (and 2713-2728, 2776-2791, 3003-3018): an
absent name is replaced, a name that is not allowed is dropped. -/
def rename (W : World) (auto n : String) : String :=
  if n = "" then auto else if W.valid n then n else ""

/-- `resolveMessageExprArgument`, `resolver/resolver.go` lines 3541-3572, with `resolveValue`, lines 5119-5151: the
value is nil unless exactly one of `by` and `inline` is given. -/
def resolveArg (a : Arg) : RArg :=
  ⟨a.name, match a.byV, a.inlineV with
    | some e, none => some ⟨e, none⟩
    | none, some e => some ⟨e, none⟩
    | _, _ => none⟩

/-- `resolveMessageExpr`, `resolver/resolver.go` lines 2529-2558.  `inMsg` says whether the context has a message; line 2542
compares it with the found one, and line 2545 reads the name of the found one if they are equal. -/
def resolveMsg (W : World) (inMsg : Bool) (m : MsgE) : Option RMsg :=
  match W.message m.name with
  | some f => some ⟨some f, m.args.map resolveArg⟩
  | none => if inMsg then some ⟨none, m.args.map resolveArg⟩ else none

/-- `resolveMapIteratorExpr`, `resolver/resolver.go` lines 2517-2527. -/
def resolveMapE (W : World) (inMsg : Bool) : MapE → Option RMapE
  | .missing => some .nil
  | .by e => some (.by ⟨e, none⟩)
  | .message m => (resolveMsg W inMsg m).map .message
  | .enum e => some (.enum ⟨e, none⟩)

/-- `resolveMapIterator`, `resolver/resolver.go` lines 2482-2515: the source, if it is one of the variables of the
context. -/
def resolveSrc (vars : List String) (src : String) : Option String :=
  if src = "" then none else if src ∈ vars then some src else none

/-- Whether line 2433 of `resolver/resolver.go` adds the definition to the variables the next ones can take as
source: resolving an error entry has given its context another map (lines 2427 and 2731, called at 2653 or 2665). -/
def hidden : RExpr → Bool
  | .call _ errors => !errors.isEmpty
  | .validation _ => true
  | _ => false

/-- The condition of an entry or detail, `resolver/resolver.go` lines 2757-2762. -/
def condOf (c : String) : Val := ⟨if c = "" then "true" else c, none⟩

/-- `resolveGRPCDetailMessages`, `resolver/resolver.go` lines 2813-2833: each message becomes a definition. -/
def resolveMessages (W : World) (pre : String) : Nat → List MsgE → Option (List RDef)
  | _, [] => some []
  | i, m :: ms => match resolveMsg W true m with
    | none => none
    | some r => match resolveMessages W pre (i + 1) ms with
      | none => none
      | some rs => some (.mk (pre ++ toString i) none false (.message r) none :: rs)

mutual

/-- `resolveVariableDefinitions`, `resolver/resolver.go` lines 2426-2437.  `pre` is the beginning of the names given to
definitions without name, `i` the index, `vars` the variables of the context. -/
def resolveDefs (W : World) (pre : String) (vars : List String) : Nat → List Def → Option (List RDef)
  | _, [] => some []
  | i, d :: ds => match resolveDef W pre vars i d with
    | none => none
    | some r =>
      match resolveDefs W pre (if hidden r.expr then vars else r.name :: vars) (i + 1) ds with
      | none => none
      | some rs => some (r :: rs)

/-- `resolveVariableDefinition`, `resolver/resolver.go` lines 2439-2452. -/
def resolveDef (W : World) (pre : String) (vars : List String) (i : Nat) : Def → Option RDef
  | .mk n c a e => match resolveExpr W vars i e with
    | none => none
    | some r => some (.mk (rename W (pre ++ toString i) n) (if c = "" then none else some ⟨c, none⟩) a r none)

/-- `resolveVariableExpr`, `resolver/resolver.go` lines 2454-2470, with `resolveMapExpr` (2472-2480), `resolveEnumExpr`
(2560-2586), `resolveCallExpr` (2588-2662: nil if the method is not found) and `resolveValidationExpr`
(2664-2686: without `error`, line 2736 reads the code of a nil entry). -/
def resolveExpr (W : World) (vars : List String) (i : Nat) : Expr → Option RExpr
  | .missing => some .nil
  | .by e => some (.by ⟨e, none⟩)
  | .map it s e => (resolveMapE W true e).map (.map it (resolveSrc vars s))
  | .message m => (resolveMsg W true m).map .message
  | .enum e => some (.enum ⟨e, none⟩)
  | .call mth es => match W.method mth with
    | none => some .empty
    | some resp => (resolveErrs W i es).map (.call resp)
  | .validation e => (resolveErr W i e).map .validation
  | .validationEmpty => none

/-- The loop of `resolver/resolver.go` lines 2652-2654. -/
def resolveErrs (W : World) (i : Nat) : List Err → Option (List RErr)
  | [] => some []
  | e :: es => match resolveErr W i e with
    | none => none
    | some r => match resolveErrs W i es with
      | none => none
      | some rs => some (r :: rs)

/-- `resolveGRPCError`, `resolver/resolver.go` lines 2688-2743. -/
def resolveErr (W : World) (i : Nat) : Err → Option RErr
  | .mk c ds dets => match resolveDefs W s!"_def{i}_def" [] 0 ds with
    | none => none
    | some rds => (resolveDetails W i 0 dets).map (.mk (condOf c) rds)

/-- `resolveGRPCErrorDetails`, `resolver/resolver.go` lines 2764-2811. -/
def resolveDetails (W : World) (i : Nat) : Nat → List Detail → Option (List RDetail)
  | _, [] => some []
  | j, d :: ds => match resolveDetail W i j d with
    | none => none
    | some r => match resolveDetails W i (j + 1) ds with
      | none => none
      | some rs => some (r :: rs)

/-- One turn of that loop, `resolver/resolver.go` lines 2770-2808. -/
def resolveDetail (W : World) (i j : Nat) : Detail → Option RDetail
  | .mk c ds ms => match resolveDefs W s!"_def{i}_err_detail{j}_def" [] 0 ds with
    | none => none
    | some rds => (resolveMessages W s!"_def{i}_err_detail{j}_msg" 0 ms).map (.mk (condOf c) rds)

end

/-- The oneof fields, `resolver/resolver.go` lines 1321-1327 and 2979-3029. -/
def resolveOneofs (W : World) : List (List Def) → Option (List (List RDef))
  | [] => some []
  | o :: os => match resolveDefs W "_oneof_def" [] 0 o with
    | none => none
    | some r => match resolveOneofs W os with
      | none => none
      | some rs => some (r :: rs)

/-- `UseAllNameReference`, `resolver/message.go` lines 276-294: line 289 reads the validation of an expression that may
be nil. -/
def useAll : List RDef → Option Unit
  | [] => some ()
  | .mk n _ _ e _ :: ds => if n = "" then useAll ds else match e with
    | .nil => none
    | _ => useAll ds

/-! ## Step 2: the expressions are checked -/

/-- `resolveCELValue`, `resolver/resolver.go` lines 4425-4453: a value that is rejected is left as it is. -/
def celVal (W : World) (env : Env) (v : Val) : Val :=
  match W.check env v.expr with
  | none => v
  | some c => ⟨v.expr, some c⟩

/-- `Out` of a value. -/
def Val.out (v : Val) : Option Ty := v.checked.map (·.1)

/-- `resolveMessageExprCELValues`, `resolver/resolver.go` lines 4107-4131: a nil value is skipped (line 4109). -/
def celMsg (W : World) (env : Env) (m : RMsg) : RMsg × Option Ty :=
  (⟨m.message, m.args.map fun a => ⟨a.name, a.value.map (celVal W env)⟩⟩,
    some ⟨.message (m.message.map (·.name)), false⟩)

/-- `resolveMapIteratorExprCELValues`, `resolver/resolver.go` lines 4020-4038: line 4022 reads `By` of an expression that may
be nil. -/
def celMapE (W : World) (env : Env) : RMapE → Option (RMapE × Option Ty)
  | .nil => none
  | .by v => some (.by (celVal W env v), (celVal W env v).out)
  | .message m => some (.message (celMsg W env m).1, (celMsg W env m).2)
  | .enum v => some (.enum (celVal W env v), some ⟨.enum, false⟩)

/-- The types of the earlier definitions that can be sources, the latest first. -/
abbrev Seen := List (String × Option Ty)

/-- The type of the variable of a name. -/
def Seen.find (seen : Seen) (n : String) : Option Ty :=
  match seen with
  | [] => none
  | (k, t) :: rest => if k = n then t else Seen.find rest n

/-- The end of `resolveMapExprCELValues`, `resolver/resolver.go` lines 4011-4017: the type of a map is repeated. -/
def mapTy (it : String) (src : Option String) : RMapE × Option Ty → RExpr × Option Ty
  | (e, t) => (.map it src e, t.map fun t => ⟨t.kind, true⟩)

/-- `resolveMapExprCELValues`, `resolver/resolver.go` lines 3976-4018.  Simplification: extending an environment does not
fail (line 4000). -/
def celMap (W : World) (env : Env) (seen : Seen) (it : String) (src : Option String) (e : RMapE) :
    Option (RExpr × Option Ty) :=
  match (if it = "" then none else src) with
  | none => (celMapE W env e).map (mapTy it src)
  | some s => match seen.find s with
    | none => some (.map it src e, none)
    | some t =>
      if t.repeated then (celMapE W ((it, ⟨t.kind, false⟩) :: env) e).map (mapTy it src)
      else some (.map it src e, none)

/-- The end of `resolveVariableDefinitionCELValues`, `resolver/resolver.go` lines 3932-3945. -/
def extend (env : Env) (name : String) (t : Option Ty) : Env :=
  match t with
  | none => env
  | some t => if name = "" then env else (name, t) :: env

/-- The type of the variable `error`, `resolver/resolver.go` lines 4078-4080. -/
def errTy : Ty := ⟨.message (some "grpc.federation.private.Error"), false⟩

mutual

/-- The loops over definitions (`resolver/resolver.go` lines 3845-3848, 4137-4139 and 4201-4203). -/
def celDefs (W : World) (env : Env) (seen : Seen) : List RDef → Option (List RDef × Env)
  | [] => some ([], env)
  | d :: ds => match celDef W env seen d with
    | none => none
    | some (r, env') =>
      match celDefs W env' (if hidden r.expr then seen else (r.name, r.ty) :: seen) ds with
      | none => none
      | some (rs, env'') => some (r :: rs, env'')

/-- `resolveVariableDefinitionCELValues`, `resolver/resolver.go` lines 3907-3946. -/
def celDef (W : World) (env : Env) (seen : Seen) : RDef → Option (RDef × Env)
  | .mk n c a e _ => match celExpr W env seen e with
    | none => none
    | some (e', t) => some (.mk n (c.map (celVal W env)) a e' t, extend env n t)

/-- `resolveVariableExprCELValues`, `resolver/resolver.go` lines 3948-3974 (not called for a nil expression, line 3928), with
`resolveCallExprCELValues` (4040-4105) and `resolveEnumExprCELValues` (4353-4398). -/
def celExpr (W : World) (env : Env) (seen : Seen) : RExpr → Option (RExpr × Option Ty)
  | .nil => some (.nil, none)
  | .empty => some (.empty, none)
  | .by v => some (.by (celVal W env v), (celVal W env v).out)
  | .map it src e => celMap W env seen it src e
  | .message m => some (.message (celMsg W env m).1, (celMsg W env m).2)
  | .enum v => some (.enum (celVal W env v), some ⟨.enum, false⟩)
  | .call resp es => match celErrs W (("error", errTy) :: env) es with
    | none => none
    | some rs => some (.call resp rs, some ⟨.message (some resp), false⟩)
  | .validation e => match celErr W env e with
    | none => none
    | some r => some (.validation r, some ⟨.bool, false⟩)

/-- The loop of `resolver/resolver.go` lines 4101-4103. -/
def celErrs (W : World) (env : Env) : List RErr → Option (List RErr)
  | [] => some []
  | e :: es => match celErr W env e with
    | none => none
    | some r => match celErrs W env es with
      | none => none
      | some rs => some (r :: rs)

/-- `resolveGRPCErrorCELValues`, `resolver/resolver.go` lines 4133-4198. -/
def celErr (W : World) (env : Env) : RErr → Option RErr
  | .mk c ds dets => match celDefs W env [] ds with
    | none => none
    | some (rds, env') => (celDetails W env' dets).map (.mk (celVal W env' c) rds)

/-- The loop of `resolver/resolver.go` lines 4195-4197. -/
def celDetails (W : World) (env : Env) : List RDetail → Option (List RDetail)
  | [] => some []
  | d :: ds => match celDetail W env d with
    | none => none
    | some r => match celDetails W env ds with
      | none => none
      | some rs => some (r :: rs)

/-- `resolveGRPCErrorDetailCELValues`, `resolver/resolver.go` lines 4200-4351. -/
def celDetail (W : World) (env : Env) : RDetail → Option RDetail
  | .mk c ds ms => match celDefs W env [] ds with
    | none => none
    | some (rds, env') => match celDefs W env' [] ms with
      | none => none
      | some (rms, _) => some (.mk (celVal W env' c) rds rms)

end

/-- The definitions of oneof fields, `resolver/resolver.go` lines 3866-3901: each starts with the variables of the
message. -/
def celOneofs (W : World) (env : Env) : List (List RDef) → Option (List (List RDef))
  | [] => some []
  | o :: os => match celDefs W env [] o with
    | none => none
    | some (r, _) => match celOneofs W env os with
      | none => none
      | some rs => some (r :: rs)

/-! ## Step 3: the arguments of the messages it depends on -/

mutual

/-- The message expressions of definitions, `MessageToDefsMap` and `MessageExprs` (`resolver/def.go` lines 58-128 and
130-195). -/
def msgExprs : List RDef → List RMsg
  | [] => []
  | d :: ds => defMsgs d ++ msgExprs ds

/-- Those of a definition, `resolver/def.go` lines 68-96 and 145-161. -/
def defMsgs : RDef → List RMsg
  | .mk _ _ _ e _ => exprMsgs e

/-- Those of an expression. -/
def exprMsgs : RExpr → List RMsg
  | .message m => [m]
  | .map _ _ (.message m) => [m]
  | .call _ es => errsMsgs es
  | .validation e => errMsgs e
  | _ => []

/-- Those of the entries of a call, `resolver/def.go` lines 98-106 and 163-169. -/
def errsMsgs : List RErr → List RMsg
  | [] => []
  | e :: es => errMsgs e ++ errsMsgs es

/-- Those of an entry, `resolver/def.go` lines 112-120 and 185-191. -/
def errMsgs : RErr → List RMsg
  | .mk _ ds dets => msgExprs ds ++ detailsMsgs dets

/-- Those of the details. -/
def detailsMsgs : List RDetail → List RMsg
  | [] => []
  | d :: ds => detailMsgs d ++ detailsMsgs ds

/-- Those of a detail, `resolver/def.go` lines 122-128 and 193-195. -/
def detailMsgs : RDetail → List RMsg
  | .mk _ ds ms => msgExprs ds ++ msgExprs ms

end

/-- The loop over arguments of `validateMessageDependencyArgumentName`, `resolver/resolver.go` lines 3814-3826: line 3818 reads
the CEL value of a value that may be nil. -/
def checkArgs : List RArg → Option Unit
  | [] => some ()
  | a :: as => match a.value with
    | none => none
    | some _ => checkArgs as

/-- The part of `resolveMessageArgumentRecursive` that looks at the messages the message depends on,
`resolver/resolver.go` lines 3679-3710, with `resolveMessageArgumentFields` (3717-3809).  A message that was not found is no
child of the graph (`resolver/graph.go` lines 129-138 and 169-178); one without options is skipped (line
3694). -/
def argPass : List RMsg → Option Unit
  | [] => some ()
  | m :: ms => match m.message with
    | none => argPass ms
    | some f => if f.hasRule then (match checkArgs m.args with
        | none => none
        | some _ => argPass ms) else argPass ms

/-! ## Step 4: automatic bindings -/

/-- `resolveAutoBindFields`, `resolver/resolver.go` lines 1382-1399: line 1386 reads the type of an expression that may be nil,
line 1393 the fields of a message that may be nil. -/
def autoBind : List RDef → Option Unit
  | [] => some ()
  | .mk _ _ a e t :: ds => if a then (match e with
      | .nil => none
      | _ => match t with
        | none => autoBind ds
        | some t => match t.kind with
          | .message none => none
          | _ => autoBind ds) else autoBind ds

/-! ## Step 5: dependencies -/

/-- The names the condition of a definition refers to, `resolver/def.go` lines 207-209 and `resolver/value.go` lines 24-44. -/
def condRefs : Option Val → List String
  | none => []
  | some v => match v.checked with
    | none => []
    | some (_, refs) => refs

/-- `setupVariableDependencyByReferenceName`, `resolver/graph.go` lines 329-365: line 342 reads the map of an expression
that may be nil, if the definition refers to something.  Only a definition with an expression has further
references (`resolver/def.go` lines 214-217), and for it line 342 is safe. -/
def byName : List RDef → Option Unit
  | [] => some ()
  | .mk _ c _ e _ :: ds => match e with
    | .nil => if condRefs c = [] then byName ds else none
    | _ => byName ds

/-- The sets of definitions of details, `resolver/resolver.go` lines 5112-5116. -/
def detailSets : List RDetail → List (List RDef)
  | [] => []
  | .mk _ ds ms :: dets => ds :: ms :: detailSets dets

/-- `resolveGRPCErrorMessageDependencies`, `resolver/resolver.go` lines 5107-5117. -/
def errSets : RErr → List (List RDef)
  | .mk _ ds dets => ds :: detailSets dets

/-- The sets of one definition of the message, `resolver/resolver.go` lines 5079-5093. -/
def defSets : RDef → List (List RDef)
  | .mk _ _ _ (.call _ es) _ => es.flatMap errSets
  | .mk _ _ _ (.validation e) _ => errSets e
  | _ => []

/-- `byName` for each set. -/
def byNames : List (List RDef) → Option Unit
  | [] => some ()
  | s :: ss => match byName s with
    | none => none
    | some _ => byNames ss

/-! ## The steps together -/

/-- `Resolve`, `resolver/resolver.go` lines 152-188, for the definitions of one message: `resolveMessageRules` (1303-1319),
`resolveMessageArgument` (3575-3715), `resolveAutoBind` (5063-5069) and `resolveMessageDependencies`
(5072-5105).  `reached` says whether the arguments of the message are resolved: they are not if the graph of
messages is rejected (lines 3577-3580) or the environment cannot be made (lines 3657-3675).  Simplifications: the
message is visited once, and the file has a service with options (line 173). -/
def run (W : World) (reached : Bool) (m : Msg) : Option Unit :=
  match resolveDefs W "_def" [] 0 m.defs with
  | none => none
  | some ds => match resolveOneofs W m.oneofs with
    | none => none
    | some os =>
      match (if m.custom || m.customField then useAll ds else some ()) with
      | none => none
      | some _ =>
        match (if reached then (match celDefs W [] [] ds with
            | none => none
            | some (ds', env) => match celOneofs W env os with
              | none => none
              | some os' => match argPass (msgExprs ds' ++ os'.flatMap msgExprs) with
                | none => none
                | some _ => some (ds', os'))
          else some (ds, os)) with
        | none => none
        | some (ds', os') =>
          match (if m.custom then some () else autoBind ds') with
          | none => none
          | some _ => byNames (ds' :: (ds'.flatMap defSets ++ os'))

end Verif.Unfinished
