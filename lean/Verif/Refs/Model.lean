import Verif.Graph.Model

/-!
# Reference names of a variable definition

Models `resolver/def.go` lines 197-322 and 380-391, `resolver/value.go` lines 17-44,
`resolver/message.go` lines 296-306 and `resolver/enum.go` lines 89-95: how the resolver collects
the variable names a definition refers to.
-/

namespace Verif.Refs

/-- A checked CEL expression.  `app` covers operators, function calls, field selection, list, map
and message construction (anything that only evaluates its parts); `comp` is the comprehension a
macro (`filter`, `map`, `exists`, …) expands to, with its iteration and accumulator variables.
Simplification: literals, types and field names are dropped. -/
inductive Cel where
  | lit
  | ident (name : String)
  | app (args : List Cel)
  | comp (iter acc : String) (range init cond step result : Cel)

/-- `federation.MessageArgumentVariableName` (`grpc/federation/const.go` line 9). -/
def argName : String := "__ARG__"

mutual
/-- Names in the checker's reference map (cel-go `checker.checkIdent` records one reference per
identifier, bound comprehension variables included, and one nameless reference per function call). -/
def Cel.referenceMap : Cel → List String
  | .lit => []
  | .ident n => [n]
  | .app args => "" :: Cel.referenceMaps args
  | .comp _ _ r i c s e =>
    r.referenceMap ++ i.referenceMap ++ c.referenceMap ++ s.referenceMap ++ e.referenceMap
/-- The same for a list of sub-expressions. -/
def Cel.referenceMaps : List Cel → List String
  | [] => []
  | c :: cs => c.referenceMap ++ Cel.referenceMaps cs
end

/-- `CELValue.ReferenceNames`, `resolver/value.go` lines 24-44. -/
def Cel.refs (c : Cel) : List String :=
  c.referenceMap.filter fun n => decide (n ≠ argName) && decide (n ≠ "")

/-- A possibly absent CEL value: the `nil` receivers of `resolver/value.go` lines 17-30. -/
def refsOpt : Option Cel → List String
  | none => []
  | some c => c.refs

/-- Reference names of several CEL values, one after the other. -/
def refsList : List Cel → List String
  | [] => []
  | c :: cs => c.refs ++ refsList cs

/-- One argument of a method call request: value and optional `if`
(`resolver/types.go` `Argument`). -/
structure Arg where
  value : Cel
  cond : Option Cel := none

/-- `arg.Value.ReferenceNames()` for every argument: `resolver/def.go` lines 282-284.  The `if` of
an argument is not visited. -/
def argRefs : List Arg → List String
  | [] => []
  | a :: as => a.value.refs ++ argRefs as

/-- Expression evaluated per element by a `map` (`resolver/types.go` `MapIteratorExpr`). -/
inductive IterExpr where
  | by (c : Cel)
  | message (args : List Cel)
  | enum (c : Cel)

/-- `MapIteratorExpr.ReferenceNames`, `resolver/def.go` lines 309-322: no case for `Enum`. -/
def IterExpr.refs : IterExpr → List String
  | .by c => c.refs
  | .message args => refsList args
  | .enum _ => []

mutual
/-- `VariableDefinition` (`resolver/types.go`). -/
inductive VarDef where
  | mk (name : String) (cond : Option Cel) (expr : Expr)
/-- `VariableExpr` and its variants (`resolver/types.go`). `map` carries the iterator name and the
name of the source definition. -/
inductive Expr where
  | by (c : Cel)
  | map (iter src : String) (e : IterExpr)
  | call (args : List Arg) (retryIf : Option Cel) (errs : List GErr)
  | message (args : List Cel)
  | enum (c : Cel)
  | validation (e : GErr)
/-- `GRPCError` (`resolver/types.go`): `if`, `def`, `message`, `ignore_and_response`, `details`. -/
inductive GErr where
  | mk (cond : Option Cel) (defs : List VarDef) (message ignoreResp : Option Cel)
      (details : List Detail)
/-- `GRPCErrorDetail` (`resolver/types.go`): `if`, `def`, `message`, `by`, precondition failures
(type, subject, description), bad requests (field, description) and localized messages. -/
inductive Detail where
  | mk (cond : Option Cel) (defs messages : List VarDef) (bys : List Cel)
      (precond : List (List (Cel × Cel × Cel))) (badReq : List (List (Cel × Cel)))
      (localized : List Cel)
end

/-- The two loops of `resolver/def.go` lines 258-264. -/
def precondRefs (p : List (List (Cel × Cel × Cel))) : List String :=
  p.flatMap fun vs => vs.flatMap fun v => v.1.refs ++ v.2.1.refs ++ v.2.2.refs

/-- The two loops of `resolver/def.go` lines 265-270. -/
def badReqRefs (p : List (List (Cel × Cel))) : List String :=
  p.flatMap fun vs => vs.flatMap fun v => v.1.refs ++ v.2.refs

/- `toUniqueReferenceNames` (`resolver/def.go` lines 380-391) sorts and removes duplicates after
each of the functions below.  Simplification: the model keeps the lists as they are, because only
membership matters to the graph (`resolver/graph.go` lines 345-363 adds each edge once). -/
mutual
/-- `VariableDefinition.ReferenceNames`, `resolver/def.go` lines 205-212. -/
def VarDef.refs : VarDef → List String
  | .mk _ cond e => refsOpt cond ++ e.refs
/-- `VariableExpr.ReferenceNames`, `resolver/def.go` lines 214-233, with `CallExpr` (277-289) and
`MapExpr` (291-307) inlined. -/
def Expr.refs : Expr → List String
  | .by c => c.refs
  | .map iter src e =>
    (if iter = "" then [] else [iter]) ++ (if src = "" then [] else [src]) ++ e.refs
  | .call args _ errs => argRefs args ++ GErr.refsL errs
  | .message args => refsList args
  | .enum c => c.refs
  | .validation e => e.refs
/-- `GRPCError.ReferenceNames`, `resolver/def.go` lines 236-245. -/
def GErr.refs : GErr → List String
  | .mk cond defs _ _ details => refsOpt cond ++ VarDef.refsL defs ++ Detail.refsL details
/-- `GRPCErrorDetail.ReferenceNames`, `resolver/def.go` lines 247-275. -/
def Detail.refs : Detail → List String
  | .mk cond defs messages bys precond badReq localized =>
    refsOpt cond ++ VarDef.refsL defs ++ VarDef.refsL messages ++ refsList bys ++
      precondRefs precond ++ badReqRefs badReq ++ refsList localized
/-- Loop over definitions (`resolver/def.go` lines 238-240). -/
def VarDef.refsL : List VarDef → List String
  | [] => []
  | d :: ds => d.refs ++ VarDef.refsL ds
/-- Loop over error entries (`resolver/def.go` lines 285-287). -/
def GErr.refsL : List GErr → List String
  | [] => []
  | d :: ds => d.refs ++ GErr.refsL ds
/-- Loop over details (`resolver/def.go` lines 241-243). -/
def Detail.refsL : List Detail → List String
  | [] => []
  | d :: ds => d.refs ++ Detail.refsL ds
end

/-- What the dependency graph sees of a definition (`resolver/graph.go` lines 331-345, 371). -/
def VarDef.toDef : VarDef → Graph.Def
  | .mk name cond e => {
      name := name
      refs := (VarDef.mk name cond e).refs
      iter := match e with | .map iter _ _ => iter | _ => ""
      isValidation := match e with | .validation _ => true | _ => false }

end Verif.Refs
