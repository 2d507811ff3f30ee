import Verif.Refs.Model

/-!
# What a definition reads

`Cel.reads e n`: evaluating `e` may look up the variable `n` in the surrounding scope.
`VarDef.reads d n`: some expression that the generated code evaluates for `d` reads `n`.
The sites are taken from the code templates, not from `ReferenceNames`:
`generator/templates/eval.go.tmpl` lines 1-176 (if, by, map source and iterator expression, enum,
request arguments and their `if`, retry `if`) and lines 248-290, and
`generator/templates/error_handler.go.tmpl` (if, definitions, message, ignore-and-response,
details).
-/

namespace Verif.Refs

/-- Free variables of a CEL expression: the comprehension's own variables are bound in its
condition, step and result. -/
inductive Cel.reads : Cel → String → Prop where
  | ident (n) : Cel.reads (.ident n) n
  | app {args c n} : c ∈ args → Cel.reads c n → Cel.reads (.app args) n
  | range {i a r x c s e n} : Cel.reads r n → Cel.reads (.comp i a r x c s e) n
  | init {i a r x c s e n} : Cel.reads x n → Cel.reads (.comp i a r x c s e) n
  | cond {i a r x c s e n} : Cel.reads c n → n ≠ i → n ≠ a → Cel.reads (.comp i a r x c s e) n
  | step {i a r x c s e n} : Cel.reads s n → n ≠ i → n ≠ a → Cel.reads (.comp i a r x c s e) n
  | result {i a r x c s e n} : Cel.reads e n → n ≠ a → Cel.reads (.comp i a r x c s e) n

/-- Evaluated expressions of the iteration body of a `map`. -/
def IterExpr.sites : IterExpr → List Cel
  | .by c => [c]
  | .message args => args
  | .enum c => [c]

mutual
/-- `VarDef.reads d n`: evaluating the definition `d` may read the variable `n`. -/
inductive VarDef.reads : VarDef → String → Prop where
  | cond {name c e n} : Cel.reads c n → VarDef.reads (.mk name (some c) e) n
  | expr {name c e n} : Expr.reads e n → VarDef.reads (.mk name c e) n
/-- Reads of an expression. -/
inductive Expr.reads : Expr → String → Prop where
  | by {c n} : Cel.reads c n → Expr.reads (.by c) n
  | source {i s e} : Expr.reads (.map i s e) s
  | body {i s e c n} : c ∈ e.sites → Cel.reads c n → n ≠ i → Expr.reads (.map i s e) n
  | arg {as r es a n} : a ∈ as → Cel.reads a.value n → Expr.reads (.call as r es) n
  | argIf {as r es a c n} : a ∈ as → a.cond = some c → Cel.reads c n → Expr.reads (.call as r es) n
  | retryIf {as c es n} : Cel.reads c n → Expr.reads (.call as (some c) es) n
  | error {as r es e n} : e ∈ es → GErr.reads e n → Expr.reads (.call as r es) n
  | message {as a n} : a ∈ as → Cel.reads a n → Expr.reads (.message as) n
  | enum {c n} : Cel.reads c n → Expr.reads (.enum c) n
  | validation {e n} : GErr.reads e n → Expr.reads (.validation e) n
/-- Reads of an error entry. -/
inductive GErr.reads : GErr → String → Prop where
  | cond {c ds m i es n} : Cel.reads c n → GErr.reads (.mk (some c) ds m i es) n
  | defs {c ds m i es d n} : d ∈ ds → VarDef.reads d n → GErr.reads (.mk c ds m i es) n
  | message {c ds m i es n} : Cel.reads m n → GErr.reads (.mk c ds (some m) i es) n
  | ignoreResp {c ds m i es n} : Cel.reads i n → GErr.reads (.mk c ds m (some i) es) n
  | details {c ds m i es e n} : e ∈ es → Detail.reads e n → GErr.reads (.mk c ds m i es) n
/-- Reads of an error detail. -/
inductive Detail.reads : Detail → String → Prop where
  | cond {c ds ms bs ps qs ls n} : Cel.reads c n → Detail.reads (.mk (some c) ds ms bs ps qs ls) n
  | defs {c ds ms bs ps qs ls d n} :
      d ∈ ds → VarDef.reads d n → Detail.reads (.mk c ds ms bs ps qs ls) n
  | messages {c ds ms bs ps qs ls d n} :
      d ∈ ms → VarDef.reads d n → Detail.reads (.mk c ds ms bs ps qs ls) n
  | bys {c ds ms bs ps qs ls b n} : b ∈ bs → Cel.reads b n → Detail.reads (.mk c ds ms bs ps qs ls) n
  | precond {c ds ms bs ps qs ls vs v x n} : vs ∈ ps → v ∈ vs → x ∈ [v.1, v.2.1, v.2.2] →
      Cel.reads x n → Detail.reads (.mk c ds ms bs ps qs ls) n
  | badReq {c ds ms bs ps qs ls vs v x n} : vs ∈ qs → v ∈ vs → x ∈ [v.1, v.2] →
      Cel.reads x n → Detail.reads (.mk c ds ms bs ps qs ls) n
  | localized {c ds ms bs ps qs ls l n} :
      l ∈ ls → Cel.reads l n → Detail.reads (.mk c ds ms bs ps qs ls) n
end

/-- `Cel.binds c n`: a macro inside of the expression has a variable `n` of its own. -/
inductive Cel.binds : Cel → String → Prop where
  | app {args c n} : c ∈ args → Cel.binds c n → Cel.binds (.app args) n
  | iter {i a r x c s e} : Cel.binds (.comp i a r x c s e) i
  | acc {i a r x c s e} : Cel.binds (.comp i a r x c s e) a
  | sub {i a r x c s e d n} : d ∈ [r, x, c, s, e] → Cel.binds d n → Cel.binds (.comp i a r x c s e) n

mutual
/-- `VarDef.binds d n`: a macro or the iterator of a `map` inside of the definition is called `n`. -/
inductive VarDef.binds : VarDef → String → Prop where
  | cond {name c e n} : Cel.binds c n → VarDef.binds (.mk name (some c) e) n
  | expr {name c e n} : Expr.binds e n → VarDef.binds (.mk name c e) n
inductive Expr.binds : Expr → String → Prop where
  | by {c n} : Cel.binds c n → Expr.binds (.by c) n
  | iter {i s e} : Expr.binds (.map i s e) i
  | body {i s e c n} : c ∈ e.sites → Cel.binds c n → Expr.binds (.map i s e) n
  | arg {as r es a n} : a ∈ as → Cel.binds a.value n → Expr.binds (.call as r es) n
  | error {as r es e n} : e ∈ es → GErr.binds e n → Expr.binds (.call as r es) n
  | message {as a n} : a ∈ as → Cel.binds a n → Expr.binds (.message as) n
  | enum {c n} : Cel.binds c n → Expr.binds (.enum c) n
  | validation {e n} : GErr.binds e n → Expr.binds (.validation e) n
inductive GErr.binds : GErr → String → Prop where
  | cond {c ds m i es n} : Cel.binds c n → GErr.binds (.mk (some c) ds m i es) n
  | defs {c ds m i es d n} : d ∈ ds → VarDef.binds d n → GErr.binds (.mk c ds m i es) n
  | details {c ds m i es e n} : e ∈ es → Detail.binds e n → GErr.binds (.mk c ds m i es) n
inductive Detail.binds : Detail → String → Prop where
  | cond {c ds ms bs ps qs ls n} : Cel.binds c n → Detail.binds (.mk (some c) ds ms bs ps qs ls) n
  | defs {c ds ms bs ps qs ls d n} :
      d ∈ ds → VarDef.binds d n → Detail.binds (.mk c ds ms bs ps qs ls) n
  | messages {c ds ms bs ps qs ls d n} :
      d ∈ ms → VarDef.binds d n → Detail.binds (.mk c ds ms bs ps qs ls) n
  | bys {c ds ms bs ps qs ls b n} : b ∈ bs → Cel.binds b n → Detail.binds (.mk c ds ms bs ps qs ls) n
  | precond {c ds ms bs ps qs ls vs v x n} : vs ∈ ps → v ∈ vs → x ∈ [v.1, v.2.1, v.2.2] →
      Cel.binds x n → Detail.binds (.mk c ds ms bs ps qs ls) n
  | badReq {c ds ms bs ps qs ls vs v x n} : vs ∈ qs → v ∈ vs → x ∈ [v.1, v.2] →
      Cel.binds x n → Detail.binds (.mk c ds ms bs ps qs ls) n
  | localized {c ds ms bs ps qs ls l n} :
      l ∈ ls → Cel.binds l n → Detail.binds (.mk c ds ms bs ps qs ls) n
end

mutual
/-- The definition uses none of the five sites `ReferenceNames` does not visit: `if` of a request
argument, `if` of a retry policy, `by` of an enum inside a `map`, `message` and
`ignore_and_response` of an error entry (at any depth). -/
def VarDef.plain : VarDef → Bool
  | .mk _ _ e => e.plain
def Expr.plain : Expr → Bool
  | .by _ => true
  | .map _ _ e => match e with | .enum _ => false | _ => true
  | .call args r errs => args.all (fun a => a.cond.isNone) && r.isNone && GErr.plainL errs
  | .message _ => true
  | .enum _ => true
  | .validation e => e.plain
def GErr.plain : GErr → Bool
  | .mk _ ds m i es => m.isNone && i.isNone && VarDef.plainL ds && Detail.plainL es
def Detail.plain : Detail → Bool
  | .mk _ ds ms _ _ _ _ => VarDef.plainL ds && VarDef.plainL ms
def VarDef.plainL : List VarDef → Bool
  | [] => true
  | d :: ds => d.plain && VarDef.plainL ds
def GErr.plainL : List GErr → Bool
  | [] => true
  | d :: ds => d.plain && GErr.plainL ds
def Detail.plainL : List Detail → Bool
  | [] => true
  | d :: ds => d.plain && Detail.plainL ds
end

end Verif.Refs
