/-!
# Field rules: from options to the code that sets the fields of a message

Models `resolveFieldRule`, `resolveFieldOneofRule`, `resolveFieldAlias`, `resolveValue`,
`validateFieldsOneofRule`, `resolveAutoBindFields` and `validateMessageFields`
(`resolver/resolver.go` lines 1318-1438, 1534-1550, 2916-3098, 5119-5151), `ReturnFields` and
`oneofValueToReturnField` (`generator/code_generator.go` lines 2402-2442, 2588-2684) and the code
generated for a oneof (`generator/templates/server.go.tmpl` lines 705-761).

Errors are collected in a list, as in the resolver's context; an input is accepted if the list is
empty.  Types are abstract: `diff` is `isDifferentType` (modelled in `Verif.Types`).  The checks of
`validateBindFieldType` and the definitions inside a oneof option are not modelled here.
-/

namespace Verif.Field

abbrev Name := String
abbrev Expr := String

inductive Err where
  | oneofOutside | noValue | multipleValues | aliasWithoutMessageAlias | aliasMissing | aliasTypeDiffers
  | multipleDefaults | noCondition | noBy | ambiguousAutobind | noRule
deriving DecidableEq, Repr

/-- `FieldOneof.cond` of the option. -/
inductive Cond where
  | unset
  | ifExpr (e : Expr)
  | default (b : Bool)
deriving DecidableEq, Repr

/-- The `oneof` part of the field option. -/
structure OneofOpt where
  cond : Cond
  «by» : Expr
deriving DecidableEq, Repr

/-- The `grpc.federation.field` option (`federation.proto` lines 514-530). -/
structure FieldOpt where
  customResolver : Option Bool := none
  alias : Option Name := none
  «by» : Option Expr := none
  oneof : Option OneofOpt := none
  env : Bool := false
deriving DecidableEq, Repr

/-- `FieldOneofRule`. -/
structure OneofRule where
  cond : Option Expr
  default : Bool
  «by» : Option Expr
deriving DecidableEq, Repr

/-- `FieldRule`. Aliases are the names of the alias fields, `autoBind` the name of the definition. -/
structure Rule where
  value : Option Expr := none
  customResolver : Bool := false
  messageCustomResolver : Bool := false
  aliases : List Name := []
  oneof : Option OneofRule := none
  env : Bool := false
  autoBind : Option Name := none
deriving DecidableEq, Repr

/-- A declared field; `oneof` is the oneof it is a member of. -/
structure FieldDef (Ty : Type) where
  name : Name
  ty : Ty
  oneof : Option Name := none
  opt : Option FieldOpt := none

/-- The message option: custom resolver, and the fields of every alias message. -/
structure MsgOpt (Ty : Type) where
  customResolver : Bool := false
  aliases : List (List (Name × Ty)) := []

/-- `resolveValue`, `resolver/resolver.go` lines 5119-5151. -/
def resolveValue (customResolver : Option Bool) (alias «by» inline : Option Expr) : Except Err (Option Expr) :=
  let n := (if customResolver.isSome then 1 else 0) + (if alias.isSome then 1 else 0) +
    (if «by».isSome then 1 else 0) + (if inline.isSome then 1 else 0)
  let value := match inline with
    | some e => some e
    | none => «by»
  if n = 0 then .error .noValue else if n ≠ 1 then .error .multipleValues else .ok value

/-- An empty string is no expression. -/
def nonEmpty (e : Expr) : Option Expr := if e = "" then none else some e

/-- `resolveFieldOneofRule`, `resolver/resolver.go` lines 2979-3028: rule and errors. -/
def resolveOneof {Ty} (f : FieldDef Ty) : Option OneofOpt → Option OneofRule × List Err
  | none => (none, [])
  | some o =>
    if f.oneof.isNone then (none, [.oneofOutside])
    else
      (some ⟨(match o.cond with
          | .ifExpr e => nonEmpty e
          | _ => none),
        (match o.cond with
          | .default b => b
          | _ => false),
        nonEmpty o.by⟩, [])

/-- `resolveFieldAlias` and `resolveFieldRuleByAutoAlias`, `resolver/resolver.go` lines 3031-3098. -/
def resolveAlias {Ty} (diff : Ty → Ty → Bool) (f : FieldDef Ty) (alias : Name) (target : List (Name × Ty)) :
    Option Name × List Err :=
  let n := if alias = "" then f.name else alias
  match target.find? (fun g => g.1 == n) with
  | none => (none, [.aliasMissing])
  | some g => if diff f.ty g.2 then (none, [.aliasTypeDiffers]) else (some g.1, [])

/-- `resolveFieldRule`, `resolver/resolver.go` lines 2916-2977. `m` is the message's rule, if it has one. -/
def resolveFieldRule {Ty} (diff : Ty → Ty → Bool) (m : Option (MsgOpt Ty)) (f : FieldDef Ty) :
    Option Rule × List Err :=
  match f.opt with
  | none => match m with
    | none => (none, [])
    | some m =>
      if !m.customResolver && m.aliases.isEmpty then (none, [])
      else
        let rs := m.aliases.map (resolveAlias diff f "")
        -- the loop stops at the first alias that is not found, with its error
        if rs.any (fun r => r.1.isNone) then (none, (rs.filter (fun r => r.1.isNone)).head?.elim [] (·.2))
        else (some { messageCustomResolver := m.customResolver, aliases := rs.filterMap (·.1) }, [])
  | some o =>
    let oo := resolveOneof f o.oneof
    let value := if oo.1.isNone && !o.env then resolveValue o.customResolver o.alias o.by none else .ok none
    match value with
    | .error e => (none, oo.2 ++ [e])
    | .ok v =>
      let as := match m with
        | none => []
        | some m => m.aliases.map (resolveAlias diff f (o.alias.getD ""))
      let e1 := if o.alias.getD "" ≠ "" && (match m with
          | none => true
          | some m => m.aliases.isEmpty) then [Err.aliasWithoutMessageAlias] else []
      (some { value := v, customResolver := o.customResolver.getD false, aliases := as.filterMap (·.1)
              oneof := oo.1, env := o.env }, oo.2 ++ e1 ++ as.flatMap (·.2))

/-- A field with its rule. -/
structure Field (Ty : Type) where
  name : Name
  ty : Ty
  oneof : Option Name
  rule : Option Rule

def resolveField {Ty} (diff : Ty → Ty → Bool) (m : Option (MsgOpt Ty)) (f : FieldDef Ty) : Field Ty :=
  ⟨f.name, f.ty, f.oneof, (resolveFieldRule diff m f).1⟩

/-- `validateFieldsOneofRule`, `resolver/resolver.go` lines 1331-1371: one pass over all fields of the message. -/
def validateOneofs {Ty} : List (Field Ty) → Bool → List Err
  | [], _ => []
  | f :: fs, used => match f.rule with
    | none => validateOneofs fs used
    | some r => match r.oneof with
      | none => validateOneofs fs used
      | some o =>
        (if o.default && used then [.multipleDefaults] else []) ++
        (if !o.default && o.cond.isNone then [.noCondition] else []) ++
        (if o.by.isNone then [.noBy] else []) ++ validateOneofs fs (used || o.default)

/-- A definition of the message: its name, whether it is `autobind`, and the fields of its type if
that is a message. -/
structure Def (Ty : Type) where
  name : Name
  autoBind : Bool
  fields : Option (List (Name × Ty))

/-- `autobindFieldMap[name]`, `resolver/resolver.go` lines 1382-1399. -/
def candidates {Ty} (defs : List (Def Ty)) (n : Name) : List (Name × Ty) :=
  defs.flatMap (fun d => if d.autoBind then
    match d.fields with
    | none => []
    | some fs => (fs.filter (fun g => g.1 == n)).map (fun g => (d.name, g.2))
    else [])

/-- One step of the second loop of `resolveAutoBindFields`, `resolver/resolver.go` lines 1400-1437. -/
def autoBindField {Ty} (diff : Ty → Ty → Bool) (defs : List (Def Ty)) (f : Field Ty) : Field Ty × List Err :=
  match f.rule with
  | some _ => (f, [])
  | none => match candidates defs f.name with
    | [] => (f, [])
    | [c] => if diff c.2 f.ty then (f, []) else ({ f with rule := some { autoBind := some c.1 } }, [])
    | _ => (f, [.ambiguousAutobind])

/-- `validateMessageFields`, `resolver/resolver.go` lines 1534-1548: every field of a message with a rule needs one. -/
def validateFields {Ty} (fs : List (Field Ty)) : List Err :=
  fs.flatMap (fun f => if f.rule.isNone then [.noRule] else [])

/-- The whole of it for a message: resolved fields and errors. `m` is the declared message option;
a message without option gets an empty rule when a field has one (`resolver/resolver.go` lines 1322-1324). -/
def resolveMessage {Ty} (diff : Ty → Ty → Bool) (m : Option (MsgOpt Ty)) (defs : List (Def Ty))
    (fds : List (FieldDef Ty)) : List (Field Ty) × List Err :=
  let fs := fds.map (resolveField diff m)
  let e1 := fds.flatMap (fun f => (resolveFieldRule diff m f).2)
  let e2 := validateOneofs fs false
  let hasRule := m.isSome || fs.any (fun f => f.rule.isSome)
  if !hasRule then (fs, e1 ++ e2)
  else
    let cr := match m with
      | none => false
      | some m => m.customResolver
    let bound := if cr then fs.map (fun f => (f, [])) else fs.map (autoBindField diff defs)
    (bound.map (·.1), e1 ++ e2 ++ bound.flatMap (·.2) ++ validateFields (bound.map (·.1)))

/-! ## Generated code -/

/-- A case of the switch generated for a oneof. -/
inductive Case where
  | auto (field : Name) (defName : Name)
  | rule (field : Name) (r : OneofRule)
deriving DecidableEq, Repr

/-- `ReturnField`: what the generated code does for a field or oneof. -/
inductive Return where
  | custom (field : Name)
  | cel (field : Name) (e : Expr)
  | auto (field : Name) (defName : Name)
  | oneof (name : Name) (cases : List Case) (default : Option (Name × OneofRule))
deriving DecidableEq, Repr

/-- The first loop of `ReturnFields`, `generator/code_generator.go` lines 2404-2431. -/
def plainReturn {Ty} (f : Field Ty) : Option Return :=
  if f.oneof.isSome then none
  else match f.rule with
    | none => none
    | some r =>
      if r.customResolver then some (.custom f.name)
      else match r.value with
        | some e => some (.cel f.name e)
        | none => match r.autoBind with
          | some d => some (.auto f.name d)
          | none => none

/-- The cases built by `oneofValueToReturnField`, `generator/code_generator.go` lines 2593-2677. -/
def oneofCase {Ty} (f : Field Ty) : Option Case :=
  match f.rule with
  | none => none
  | some r => match r.autoBind with
    | some d => some (.auto f.name d)
    | none => match r.oneof with
      | none => none
      | some o => if o.default then none else some (.rule f.name o)

/-- The default built by `oneofValueToReturnField`; a later one replaces an earlier one. -/
def oneofDefault {Ty} : List (Field Ty) → Option (Name × OneofRule) → Option (Name × OneofRule)
  | [], acc => acc
  | f :: fs, acc => oneofDefault fs (match f.rule with
    | none => acc
    | some r => match r.autoBind with
      | some _ => acc
      | none => match r.oneof with
        | none => acc
        | some o => if o.default then some (f.name, o) else acc)

/-- The members of a oneof. -/
def members {Ty} (fs : List (Field Ty)) (o : Name) : List (Field Ty) := fs.filter (fun f => f.oneof == some o)

/-- `ReturnFields`; `oneofs` are the oneofs of the message. -/
def returnFields {Ty} (oneofs : List Name) (fs : List (Field Ty)) : List Return :=
  fs.filterMap plainReturn ++
    oneofs.map (fun o => .oneof o ((members fs o).filterMap oneofCase) (oneofDefault (members fs o) none))

/-! ## Evaluation of a oneof -/

/-- Meaning of the parts of a oneof in a given request. `body` evaluates the definitions and the `by`
expression of a member; `auto` is the value of an autobound field, if set. -/
structure Sem (E V : Type) where
  cond : Expr → Except E Bool
  body : Name → OneofRule → Except E V
  auto : Name → Name → Option V

/-- `HasFieldOneofRule`, `code_generator.go` lines 1921-1931. -/
def hasOneofRule (cases : List Case) (default : Option (Name × OneofRule)) : Bool :=
  cases.any (fun c => match c with
    | .rule _ _ => true
    | .auto _ _ => false) || default.isSome

/-- `generator/templates/server.go.tmpl` lines 711-722: the conditions are evaluated first, all of them. An autobound member among them
declares a variable that is never used. -/
def compiles (cases : List Case) (default : Option (Name × OneofRule)) : Bool :=
  !(hasOneofRule cases default && cases.any (fun c => match c with
    | .rule _ _ => false
    | .auto _ _ => true))

/-- Evaluates the condition of every case, in order. -/
def evalConds {E V} (s : Sem E V) : List Case → Except E (List (Case × Bool))
  | [] => .ok []
  | c :: cs =>
    match (match c with
      | .auto f d => (.ok (s.auto f d).isSome : Except E Bool)
      | .rule _ r => s.cond (r.cond.getD "")) with
    | .error e => .error e
    | .ok b => match evalConds s cs with
      | .error e => .error e
      | .ok bs => .ok ((c, b) :: bs)

/-- The body of a case, `generator/templates/server.go.tmpl` lines 739-761. -/
def runCase {E V} (s : Sem E V) : Case → Except E (Option (Name × V))
  | .auto f d => .ok ((s.auto f d).map (fun v => (f, v)))
  | .rule f r => match s.body f r with
    | .error e => .error e
    | .ok v => .ok (some (f, v))

/-- The code of a oneof, `generator/templates/server.go.tmpl` lines 711-735: conditions, then a switch. The result is the member that is
set with its value. -/
def runOneof {E V} (s : Sem E V) (cases : List Case) (default : Option (Name × OneofRule)) :
    Except E (Option (Name × V)) :=
  match evalConds s cases with
  | .error e => .error e
  | .ok bs => match bs.find? (fun p => p.2) with
    | some p => runCase s p.1
    | none => match default with
      | some (f, r) => runCase s (.rule f r)
      | none => .ok none

end Verif.Field
