import Verif.Unfinished.Model

/-!
# What a finished definition is

Read off the options, without looking at the steps of the resolver.
-/

namespace Verif.Unfinished

/-- The parts of a definition as it is written. -/
def Def.name : Def → String | .mk n _ _ _ => n
def Def.cond : Def → String | .mk _ c _ _ => c
def Def.autobind : Def → Bool | .mk _ _ a _ => a
def Def.expr : Def → Expr | .mk _ _ _ e => e

mutual

/-- All definitions of a list, also those inside error entries and their details.  A message of a detail
counts as a definition of that message.  The error entries of a call of an unknown method are left out: that
call is an error of its own. -/
def allDefs (W : World) : List Def → List Def
  | [] => []
  | d :: ds => defDefs W d ++ allDefs W ds

/-- The definition itself and those inside it. -/
def defDefs (W : World) : Def → List Def
  | .mk n c a e => .mk n c a e :: exprDefs W e

/-- Those inside an expression. -/
def exprDefs (W : World) : Expr → List Def
  | .call m es => if (W.method m).isSome then errsDefs W es else []
  | .validation e => errDefs W e
  | _ => []

/-- Those inside error entries. -/
def errsDefs (W : World) : List Err → List Def
  | [] => []
  | e :: es => errDefs W e ++ errsDefs W es

/-- Those inside an error entry. -/
def errDefs (W : World) : Err → List Def
  | .mk _ ds dets => allDefs W ds ++ detailsDefs W dets

/-- Those inside details. -/
def detailsDefs (W : World) : List Detail → List Def
  | [] => []
  | d :: ds => detailDefs W d ++ detailsDefs W ds

/-- Those inside a detail. -/
def detailDefs (W : World) : Detail → List Def
  | .mk _ ds ms => allDefs W ds ++ ms.map fun m => .mk "" "" false (.message m)

end

/-- The argument has exactly one value. -/
def Arg.given (a : Arg) : Bool := a.byV.isSome != a.inlineV.isSome

/-- The expression is there, and so is everything it needs. -/
def complete : Expr → Bool
  | .missing => false
  | .validationEmpty => false
  | .map _ _ .missing => false
  | .map _ _ (.message m) => m.args.all Arg.given
  | .message m => m.args.all Arg.given
  | _ => true

/-- The message the expression asks for exists. -/
def known (W : World) : Expr → Bool
  | .message m => (W.message m.name).isSome
  | .map _ _ (.message m) => (W.message m.name).isSome
  | _ => true

/-- Every definition of the message is complete, and the messages that are bound automatically exist. -/
def Msg.Finished (W : World) (m : Msg) : Prop :=
  (∀ d ∈ allDefs W m.defs, complete d.expr = true) ∧
  (∀ o ∈ m.oneofs, ∀ d ∈ allDefs W o, complete d.expr = true) ∧
  (∀ d ∈ m.defs, d.autobind = true → known W d.expr = true)

/-- What the checker of expressions guarantees: the type of an accepted expression is no message that does not
exist. -/
def World.Sound (W : World) : Prop := ∀ env e t refs, W.check env e = some (t, refs) → t.kind ≠ .message none

/-- The resolver panics. -/
def Panics (W : World) (reached : Bool) (m : Msg) : Prop := run W reached m = none

end Verif.Unfinished
