/-!
# Comparison with `null`

Models `comparingNullResolver` and `exprVisitor` (`grpc/federation/cel.go` lines 907-1073),
`createCELAst` (lines 778-804) and `CastLibrary.nullValue` (`grpc/federation/cel/cast.go` lines
40-46).
-/

namespace Verif.NullCmp

/-- `exprpb.Expr` as far as the visitor distinguishes it.  `mcall` is a call with a target
(`a.f(b)`); a global call has none.  `struct` is a map or message literal: the keys of a map are
expressions too.  `comp` is a comprehension: range, accumulator, condition, step, result, with its
variable names.  Simplification: expression ids, the reference map and the type map are left out
(they only name nodes). -/
inductive Expr where
  | null
  | lit (k : Nat)
  | ident (x : String)
  | select (e : Expr) (field : String)
  | call (fn : String) (args : List Expr)
  | mcall (target : Expr) (fn : String) (args : List Expr)
  | list (es : List Expr)
  | struct (keys vals : List Expr)
  | comp (iter acc : String) (range init cond step result : Expr)

/-- `operators.Equals`, `operators.NotEquals` (cel-go). -/
def isEq (fn : String) : Bool := fn == "_==_" || fn == "_!=_"

/-- `grpcfedcel.CastNullValueFunc`, `grpc/federation/cel/cast.go` line 14. -/
def castFn : String := "grpc.federation.cast.null_value"

/-- `GetConstExpr().GetConstantKind().(*exprpb.Constant_NullValue)`, lines 983 and 986. -/
def isNull : Expr → Bool
  | .null => true
  | _ => false

/-- `grpc/federation/cel.go` lines 998-1000: the operand is already wrapped. -/
def isWrapped : Expr → Bool
  | .call fn _ => fn == castFn
  | .mcall _ fn _ => fn == castFn
  | _ => false

/-- `lookupComparingNullCallExpr`, `grpc/federation/cel.go` lines 978-1004: which operand of the call gets wrapped.
`some true` is the left one, `some false` the right one. Simplification: the Go code reads the two
arguments by index; the checker guarantees that there are two. -/
def lookup (fn : String) : List Expr → Option Bool
  | [l, r] =>
    if isEq fn then
      if isNull l then (if isNull r then none else if isWrapped r then none else some false)
      else if isNull r then (if isWrapped l then none else some true)
      else none
    else none
  | _ => none

/-- `resolveCallExpr`, `grpc/federation/cel.go` lines 950-976: put the wrapper around the chosen operand. -/
def wrap : Option Bool → List Expr → List Expr
  | some true, [l, r] => [.call castFn [l], r]
  | some false, [l, r] => [l, .call castFn [r]]
  | _, args => args

mutual
/-- `Resolve`, `grpc/federation/cel.go` lines 939-948, with `exprVisitor.visit`, lines 1019-1073.  The Go code first rewrites
a call in place and then visits its arguments, among them the new wrapper, which it does not change,
and through it the wrapped operand; here the arguments are rewritten and then wrapped, with the
decision taken on the original arguments.  Map keys are not visited (lines 1059-1064). -/
def rewrite : Expr → Expr
  | .null => .null
  | .lit k => .lit k
  | .ident x => .ident x
  | .select e f => .select (rewrite e) f
  | .call fn args => .call fn (wrap (lookup fn args) (rewriteL args))
  | .mcall t fn args => .mcall (rewrite t) fn (wrap (lookup fn args) (rewriteL args))
  | .list es => .list (rewriteL es)
  | .struct ks vs => .struct ks (rewriteL vs)
  | .comp i a r x c s e => .comp i a (rewrite r) (rewrite x) (rewrite c) (rewrite s) (rewrite e)
def rewriteL : List Expr → List Expr
  | [] => []
  | e :: es => rewrite e :: rewriteL es
end

mutual
/-- The return value of `Resolve` (`r.resolved`, lines 938 and 972): some operand was wrapped. -/
def resolved : Expr → Bool
  | .null => false
  | .lit _ => false
  | .ident _ => false
  | .select e _ => resolved e
  | .call fn args => (lookup fn args).isSome || resolvedL args
  | .mcall t fn args => (lookup fn args).isSome || resolvedL args || resolved t
  | .list es => resolvedL es
  | .struct _ vs => resolvedL vs
  | .comp _ _ r x c s e => resolved r || resolved x || resolved c || resolved s || resolved e
def resolvedL : List Expr → Bool
  | [] => false
  | e :: es => resolved e || resolvedL es
end

mutual
/-- Whether cel-go can print the expression: `parser.Unparse` (cel-go v0.23.1) has no case for a
comprehension and relies on recorded macro calls, which the environment does not record
(no `EnableMacroCallTracking` in /repo). -/
def printable : Expr → Bool
  | .null => true
  | .lit _ => true
  | .ident _ => true
  | .select e _ => printable e
  | .call _ args => printableL args
  | .mcall t _ args => printable t && printableL args
  | .list es => printableL es
  | .struct ks vs => printableL ks && printableL vs
  | .comp .. => false
def printableL : List Expr → Bool
  | [] => true
  | e :: es => printable e && printableL es
end

/-- `createCELAst`, `grpc/federation/cel.go` lines 778-804, after the first successful compilation to `e`: the expression
that is executed, or `none` when an error is returned (line 795).  Trusted: compiling the printed
form of a type-correct expression gives that expression again. -/
def createAst (e : Expr) : Option Expr :=
  if resolved e then (if printable (rewrite e) then some (rewrite e) else none) else some e

/-! ## Evaluation -/

/-- Values: `null`, a nil message (a typed nil pointer), an error, or anything else. -/
inductive Val where
  | null
  | nilMsg
  | err (k : Nat)
  | other (k : Nat)
deriving DecidableEq, Repr

/-- `nullValue`, `grpc/federation/cel/cast.go` lines 40-46. Errors propagate before a function is
called (cel-go unary functions are strict). -/
def nullValue : Val → Val
  | .nilMsg => .null
  | v => v

/-- The parts of CEL's semantics that are not fixed here: function and operator implementations,
field selection, list and struct construction and the comprehension loop. -/
structure Sem (Env : Type) where
  var : Env → String → Val
  sel : Val → String → Val
  fn : String → List Val → Val
  list : List Val → Val
  struct : List Val → List Val → Val
  comp : String → String → (Env → Val) → (Env → Val) → (Env → Val) → (Env → Val) → (Env → Val) → Env → Val
  lit : Nat → Val

/-- A call: the cast function is `nullValue` of its argument, the others are parameters.  (The
checker admits the cast function only with one argument.) -/
def apply {Env} (S : Sem Env) (fn : String) (vs : List Val) : Val :=
  if fn = castFn then nullValue (vs.headD .null) else S.fn fn vs

mutual
/-- Evaluation. -/
def eval {Env} (S : Sem Env) : Expr → Env → Val
  | .null => fun _ => .null
  | .lit k => fun _ => S.lit k
  | .ident x => fun ρ => S.var ρ x
  | .select e f => fun ρ => S.sel (eval S e ρ) f
  | .call fn args => fun ρ => apply S fn (evalL S args ρ)
  | .mcall t fn args => fun ρ => apply S fn (eval S t ρ :: evalL S args ρ)
  | .list es => fun ρ => S.list (evalL S es ρ)
  | .struct ks vs => fun ρ => S.struct (evalL S ks ρ) (evalL S vs ρ)
  | .comp i a r x c s e => S.comp i a (eval S r) (eval S x) (eval S c) (eval S s) (eval S e)
def evalL {Env} (S : Sem Env) : List Expr → Env → List Val
  | [] => fun _ => []
  | e :: es => fun ρ => eval S e ρ :: evalL S es ρ
end

end Verif.NullCmp
