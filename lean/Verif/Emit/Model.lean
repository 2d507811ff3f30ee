import Verif.Graph.Model

/-!
# Contexts in the generated group code

Models what `generator/templates/eval.go.tmpl` lines 178-246 print for an evaluation plan, as a
small Go-like program with named context variables and block scope, and the meaning of that program
as far as contexts are concerned.
-/

namespace Verif.Emit

open Verif.Graph (Grp)

/-- Name of a context variable in the generated code. `ctx` is the parameter of the enclosing
function, `ctxN n` is printed as `ctx<n>`. -/
inductive CtxName where
  | ctx
  | ctxN (n : Nat)
deriving Repr, DecidableEq

/-- `ParentCtx`, `generator/funcs.go` lines 29-40. `none` is the error for level 0, which makes code
generation fail. -/
def parentCtx : Nat → Option CtxName
  | 0 => none
  | 1 => some .ctx
  | n + 2 => some (.ctxN (n + 1))

/-- Statements of the generated code. -/
inductive Stmt where
  /-- `if err := def_d(c); err != nil { … return nil, err }` (`evalMessageDef`, lines 178-183) -/
  | call (d : Nat) (c : CtxName)
  /-- `eg, <declares> := grpcfed.ErrorGroupWithContext(<parent>)`, then one
  `grpcfed.GoWithRecover(eg, func() …)` per body, then `eg.Wait()` (lines 187-195, 228-243) -/
  | group (declares parent : CtxName) (bodies : List (List Stmt))
deriving Repr

/-- `evalDefGroup`, `eval.go.tmpl` lines 185-212. `none`: the template reports an error. -/
def emit : Nat → Grp → Option (List Stmt)
  | lvl, .seq0 e => (parentCtx lvl).map fun c => [.call e c]
  | lvl, .seq s e =>
    match emit lvl s, parentCtx lvl with
    | some ss, some c => some (ss ++ [.call e c])
    | _, _ => none
  | lvl, .conc ss e =>
    match emitL (lvl + 1) ss, parentCtx lvl with
    | some bs, some c => some [.group (.ctxN lvl) c bs, .call e c]
    | _, _ => none
where emitL : Nat → List Grp → Option (List (List Stmt))
  | _, [] => some []
  | lvl, g :: gs =>
    match emit lvl g, emitL lvl gs with
    | some a, some b => some (a :: b)
    | _, _ => none

/-- `evalDefSet`, `eval.go.tmpl` lines 214-246. -/
def emitAll : List Grp → Option (List Stmt)
  | [] => some []
  | [g] => emit 1 g
  | gs => (emit.emitL 2 gs).map fun bs => [.group (.ctxN 1) .ctx bs]

/-- The evaluation code of the error entries of one call, each with the plan of its definitions:
`error_handler.go.tmpl` lines 32-38 prints the definition sets of all entries one after the other
into the body of the same function.  Simplification: the conditions, messages and details of the
entries, which declare no context, are left out. -/
def emitEntries : List (List Grp) → Option (List Stmt)
  | [] => some []
  | gs :: rest =>
    match emitAll gs, emitEntries rest with
    | some a, some b => some (a ++ b)
    | _, _ => none

/-- Contexts at run time: the request context and one derived context per errgroup that is created,
identified by its parent and its position among the statements of its block. -/
inductive Ctx where
  | request
  | derived (parent : Ctx) (pos : Nat)
deriving Repr, DecidableEq

/-- Variables in scope, innermost declaration first. -/
abbrev Env := List (CtxName × Ctx)

/-- Go's scoping rule: the innermost declaration of a name counts. -/
def lookup : Env → CtxName → Option Ctx
  | [], _ => none
  | (n, c) :: env, m => if m = n then some c else lookup env m

/-- Contexts the definitions of a block are evaluated with, in program order; `none` if some
variable is not declared (the generated code would not compile). A group declares its context in the
current block, so the declaration is visible in its bodies and in the rest of the block. -/
def runBlock : Nat → Env → List Stmt → Option (List (Nat × Ctx))
  | _, _, [] => some []
  | pos, env, .call d c :: rest =>
    match lookup env c, runBlock (pos + 1) env rest with
    | some x, some l => some ((d, x) :: l)
    | _, _ => none
  | pos, env, .group decl par bodies :: rest =>
    match lookup env par with
    | none => none
    | some x =>
      let env' := (decl, .derived x pos) :: env
      match runBodies env' bodies, runBlock (pos + 1) env' rest with
      | some a, some b => some (a ++ b)
      | _, _ => none
where runBodies : Env → List (List Stmt) → Option (List (Nat × Ctx))
  | _, [] => some []
  | env, b :: bs =>
    match runBlock 0 env b, runBodies env bs with
    | some x, some y => some (x ++ y)
    | _, _ => none

end Verif.Emit
